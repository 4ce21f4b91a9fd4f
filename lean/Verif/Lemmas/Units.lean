import Verif.Lemmas.MachineExact

/-!
# The unit of coordinates is used only to read coordinates

A relational argument: two runs whose states differ at most in the unit.
-/

namespace PyCNC

open Spec

set_option linter.unusedSectionVars false

variable {F α β : Type} [PyNum F] {c : Cfg} {env : Env F}

/-- Equal up to the unit. -/
def SameButUnit (s s' : MState F) : Prop := s = { s' with conv := s.conv }

theorem SameButUnit.upd {s s' : MState F} (h : SameButUnit s s') {f : MState F → MState F}
    (hf : ∀ t k, f { t with conv := k } = { f t with conv := k }) : SameButUnit (f s) (f s') := by
  unfold SameButUnit at h ⊢
  rw [h, hf]

/-- The two computations have the same effect up to the unit. -/
def M.Rel (m m' : M F α) : Prop := ∀ s s', SameButUnit s s' →
  (m s).1 = (m' s').1 ∧ SameButUnit (m s).2 (m' s').2

theorem M.Rel.bind {m m' : M F α} {f f' : α → M F β} (hm : Rel m m') (hf : ∀ a, Rel (f a) (f' a)) :
    Rel (m >>= f) (m' >>= f') := by
  intro s s' h
  have h1 := hm s s' h
  rw [M.bind_run, M.bind_run]
  rcases hs : m s with ⟨e | a, t⟩ <;> rcases hs' : m' s' with ⟨e' | a', t'⟩ <;> rw [hs, hs'] at h1 <;>
    obtain ⟨h2, h3⟩ := h1
  · exact ⟨by simpa using h2, h3⟩
  · cases h2
  · cases h2
  · cases h2; exact hf a t t' h3

theorem M.Rel.pure (a : α) : Rel (Pure.pure a : M F α) (Pure.pure a) := fun _ _ h => ⟨rfl, h⟩
theorem M.Rel.throw (e : PyErr) : Rel (M.throw e : M F α) (M.throw e) := fun _ _ h => ⟨rfl, h⟩
theorem M.Rel.lift (x : Except PyErr α) : Rel (M.lift x : M F α) (M.lift x) := fun _ _ h => ⟨rfl, h⟩
theorem M.Rel.modify {f : MState F → MState F}
    (hf : ∀ t k, f { t with conv := k } = { f t with conv := k }) :
    Rel (M.modify f) (M.modify f) := fun _ _ h => ⟨rfl, h.upd hf⟩
theorem M.Rel.emit (call : HalCall F) : Rel (M.emit call) (M.emit call) :=
  M.Rel.modify fun _ _ => rfl
theorem M.Rel.get {f f' : MState F → M F α} (h : ∀ s s', SameButUnit s s' → Rel (f s) (f' s')) :
    Rel (M.get >>= f) (M.get >>= f') := by
  intro s s' hs
  rw [M.bind_get, M.bind_get]
  exact h s s' hs s s' hs
theorem M.Rel.ite {b : Prop} [Decidable b] {m n m' n' : M F α} (hm : Rel m m') (hn : Rel n n') :
    Rel (if b then m else n) (if b then m' else n') := by
  split <;> assumption
theorem M.Rel.set {m m' : M F α} (h : m = m') (h' : Rel m' m') : Rel m m' := h ▸ h'

theorem halMove_rel (g : Gen F) : M.Rel (halMove env g) (halMove env g) := by
  refine M.Rel.bind (M.Rel.emit _) fun _ => M.Rel.get fun s s' h => ?_
  rw [show s.trace = s'.trace by rw [h]]
  split
  · exact M.Rel.throw _
  · exact M.Rel.pure _

theorem moveLinear_rel (d : V4 F) (v : F) :
    M.Rel (moveLinear c env d v) (moveLinear c env d v) := by
  unfold moveLinear
  refine M.Rel.ite (M.Rel.pure _) (M.Rel.get fun s s' h => ?_)
  rw [show s.pos = s'.pos by rw [h]]
  exact M.Rel.bind (M.Rel.lift _) fun _ => M.Rel.bind (M.Rel.lift _) fun _ =>
    M.Rel.bind (M.Rel.lift _) fun _ => M.Rel.bind (halMove_rel _) fun _ =>
    M.Rel.modify fun _ _ => rfl

theorem moveCircular_rel (d r : V4 F) (v : F) (rot : Rot) :
    M.Rel (moveCircular c env d r v rot) (moveCircular c env d r v rot) := by
  unfold moveCircular
  refine M.Rel.get fun s s' h => ?_
  rw [show s.pos = s'.pos by rw [h], show s.plane = s'.plane by rw [h]]
  refine M.Rel.bind (M.Rel.lift _) fun _ => M.Rel.bind (M.Rel.lift _) fun _ =>
    M.Rel.bind (M.Rel.lift _) fun _ => M.Rel.bind (M.Rel.lift _) fun _ =>
    M.Rel.bind (M.Rel.lift _) fun lg => M.Rel.bind (halMove_rel _) fun _ => ?_
  cases lg with
  | none => exact M.Rel.modify fun _ _ => rfl
  | some l => exact M.Rel.bind (halMove_rel _) fun _ => M.Rel.modify fun _ _ => rfl

theorem safeZero_rel (x y z : Bool) : M.Rel (safeZero c env x y z) (safeZero c env x y z) := by
  unfold safeZero
  refine M.Rel.get fun s s' h => ?_
  rw [show s.pos = s'.pos by rw [h]]
  have hz : M.Rel (if z = true then do
        let s ← M.get
        moveLinear c env (Coord.new zeroF zeroF (PyNum.neg s.pos.z) zeroF)
          (PyNum.ofRat c.maxVel.z)
        else pure ()) (if z = true then do
        let s ← M.get
        moveLinear c env (Coord.new zeroF zeroF (PyNum.neg s.pos.z) zeroF)
          (PyNum.ofRat c.maxVel.z)
        else pure ()) := by
    refine M.Rel.ite (M.Rel.get fun s s' h => ?_) (M.Rel.pure _)
    rw [show s.pos = s'.pos by rw [h]]
    exact moveLinear_rel _ _
  exact M.Rel.ite (M.Rel.bind (moveLinear_rel _ _) fun _ => hz)
    (M.Rel.ite (M.Rel.bind (moveLinear_rel _ _) fun _ => hz)
      (M.Rel.ite (M.Rel.bind (moveLinear_rel _ _) fun _ => hz) hz))

theorem measure_rel (h : HeaterId) : M.Rel (measure env h) (measure env h) := by
  refine M.Rel.bind (M.Rel.emit _) fun _ => M.Rel.get fun s s' h => ?_
  rw [show s.trace = s'.trace by rw [h]]
  exact M.Rel.pure _

theorem spindle_rel (v : F) : M.Rel (spindle c v) (spindle c v) :=
  M.Rel.bind (M.Rel.emit _) fun _ => M.Rel.emit _

theorem fan_rel (b : Bool) : M.Rel (fan b : M F Unit) (fan b) :=
  M.Rel.bind (M.Rel.emit _) fun _ => M.Rel.modify fun _ _ => rfl

theorem setHeater_rel (h : HeaterId) (t : Option F) :
    M.Rel (M.modify fun s : MState F => s.setHeater h t) (M.modify fun s => s.setHeater h t) :=
  M.Rel.modify fun _ _ => by cases h <;> rfl

theorem newHeater_rel (h : HeaterId) (t : F) : M.Rel (newHeater env h t) (newHeater env h t) := by
  refine M.Rel.bind (M.Rel.emit _) fun _ => M.Rel.bind (measure_rel _) fun m => ?_
  cases m
  · exact M.Rel.throw _
  · exact M.Rel.pure _

theorem heat_rel (h : HeaterId) (t : F) (w : Bool) :
    M.Rel (heat c env h t w) (heat c env h t w) := by
  have hstart : M.Rel (do
      newHeater env h t
      M.modify fun s => s.setHeater h (some t)
      if w then
        M.emit (.heaterWait h)
        let s ← M.get
        match env.wait s.trace with
        | some e => M.throw e
        | none => return : M F Unit) (do
      newHeater env h t
      M.modify fun s => s.setHeater h (some t)
      if w then
        M.emit (.heaterWait h)
        let s ← M.get
        match env.wait s.trace with
        | some e => M.throw e
        | none => return) := by
    refine M.Rel.bind (newHeater_rel _ _) fun _ => M.Rel.bind (setHeater_rel _ _) fun _ =>
      M.Rel.ite (M.Rel.bind (M.Rel.emit _) fun _ => M.Rel.get fun s s' h => ?_) (M.Rel.pure _)
    rw [show s.trace = s'.trace by rw [h]]
    split
    · exact M.Rel.throw _
    · exact M.Rel.pure _
  have hmid : M.Rel (do
      if !(t =ₚ zeroF) then
        if h = .extruder && c.autoFan then fan true
        newHeater env h t
        M.modify fun s => s.setHeater h (some t)
        if w then
          M.emit (.heaterWait h)
          let s ← M.get
          match env.wait s.trace with
          | some e => M.throw e
          | none => return : M F Unit) (do
      if !(t =ₚ zeroF) then
        if h = .extruder && c.autoFan then fan true
        newHeater env h t
        M.modify fun s => s.setHeater h (some t)
        if w then
          M.emit (.heaterWait h)
          let s ← M.get
          match env.wait s.trace with
          | some e => M.throw e
          | none => return) :=
    M.Rel.ite (M.Rel.ite (M.Rel.bind (fan_rel _) fun _ => hstart) hstart) (M.Rel.pure _)
  have hrest : M.Rel (do
      let s ← M.get
      if (s.heater h).isSome then
        M.emit (.heaterStop h)
        M.modify fun s => s.setHeater h none
      if !(t =ₚ zeroF) then
        if h = .extruder && c.autoFan then fan true
        newHeater env h t
        M.modify fun s => s.setHeater h (some t)
        if w then
          M.emit (.heaterWait h)
          let s ← M.get
          match env.wait s.trace with
          | some e => M.throw e
          | none => return : M F Unit) (do
      let s ← M.get
      if (s.heater h).isSome then
        M.emit (.heaterStop h)
        M.modify fun s => s.setHeater h none
      if !(t =ₚ zeroF) then
        if h = .extruder && c.autoFan then fan true
        newHeater env h t
        M.modify fun s => s.setHeater h (some t)
        if w then
          M.emit (.heaterWait h)
          let s ← M.get
          match env.wait s.trace with
          | some e => M.throw e
          | none => return) := by
    refine M.Rel.get fun s s' hs => ?_
    rw [show s.heater h = s'.heater h by rw [hs]; cases h <;> rfl]
    exact M.Rel.ite (M.Rel.bind (M.Rel.emit _) fun _ => M.Rel.bind (setHeater_rel _ _) fun _ => hmid)
      hmid
  unfold heat
  exact M.Rel.bind (measure_rel _) fun m =>
    M.Rel.ite (M.Rel.bind (M.Rel.throw _) fun _ => hrest) hrest

theorem home_rel {g g' : GCode}
    (hhas : ∀ k ∈ ['X', 'Y', 'Z', 'E', 'I', 'J', 'K'], g.has k = g'.has k) :
    M.Rel (home c env g) (home c env g') := by
  unfold home
  rw [hhas 'X' (by simp), hhas 'Y' (by simp), hhas 'Z' (by simp)]
  dsimp only
  refine M.Rel.bind (safeZero_rel _ _ _) fun _ => M.Rel.bind (M.Rel.emit _) fun _ =>
    M.Rel.bind (M.Rel.emit _) fun _ => M.Rel.get fun s s' h => ?_
  rw [show s.trace = s'.trace by rw [h]]
  exact M.Rel.ite (M.Rel.pure _) (M.Rel.throw _)

theorem execCmd_rel {cmd : Cmd} {g g' : GCode} (d r : V4 F) (v : F)
    (hcmd : cmd ≠ .g92)
    (hother : ∀ k, k ∉ ['X', 'Y', 'Z', 'E', 'I', 'J', 'K'] →
      g.params.lookup k = g'.params.lookup k)
    (hhas : ∀ k ∈ ['X', 'Y', 'Z', 'E', 'I', 'J', 'K'], g.has k = g'.has k) :
    M.Rel (execCmd c env cmd g d r v) (execCmd c env cmd g' d r v) := by
  have hS : ∀ d : F, g.get 'S' d (PyNum.ofRat 1) = g'.get 'S' d (PyNum.ofRat 1) := fun d => by
    unfold GCode.get GCode.lookup; rw [hother 'S' (by decide)]
  have hP : ∀ d : F, g.get 'P' d (PyNum.ofRat 1) = g'.get 'P' d (PyNum.ofRat 1) := fun d => by
    unfold GCode.get GCode.lookup; rw [hother 'P' (by decide)]
  have hS' : g.has 'S' = g'.has 'S' := by
    unfold GCode.has GCode.lookup; rw [hother 'S' (by decide)]
  have hP' : g.has 'P' = g'.has 'P' := by
    unfold GCode.has GCode.lookup; rw [hother 'P' (by decide)]
  cases cmd with
  | g92 => exact absurd rfl hcmd
  | g0 =>
    exact M.Rel.bind (M.Rel.lift _) fun _ => M.Rel.bind (moveLinear_rel _ _) fun _ => M.Rel.pure _
  | g1 => exact M.Rel.bind (moveLinear_rel _ _) fun _ => M.Rel.pure _
  | g2 => exact M.Rel.bind (moveCircular_rel _ _ _ _) fun _ => M.Rel.pure _
  | g3 => exact M.Rel.bind (moveCircular_rel _ _ _ _) fun _ => M.Rel.pure _
  | g4 =>
    unfold execCmd
    dsimp only
    rw [hP, hP']
    have h1 : M.Rel (do
        let pause ← M.lift (g'.get 'P' (zeroF : F) (PyNum.ofRat 1))
        if pause <ₚ zeroF then M.throw (.gmachine "bad delay")
        M.emit .join
        M.emit (.sleep pause)
        return none : M F (Option (Answer F))) (do
        let pause ← M.lift (g'.get 'P' (zeroF : F) (PyNum.ofRat 1))
        if pause <ₚ zeroF then M.throw (.gmachine "bad delay")
        M.emit .join
        M.emit (.sleep pause)
        return none) := by
      refine M.Rel.bind (M.Rel.lift _) fun p => ?_
      have h2 : M.Rel (do
        M.emit .join
        M.emit (.sleep p)
        return none : M F (Option (Answer F))) (do
        M.emit .join
        M.emit (.sleep p)
        return none) :=
        M.Rel.bind (M.Rel.emit _) fun _ => M.Rel.bind (M.Rel.emit _) fun _ => M.Rel.pure _
      exact M.Rel.ite (M.Rel.bind (M.Rel.throw _) fun _ => h2) h2
    exact M.Rel.ite (M.Rel.bind (M.Rel.throw _) fun _ => h1) h1
  | g17 => exact M.Rel.bind (M.Rel.modify fun _ _ => rfl) fun _ => M.Rel.pure _
  | g18 => exact M.Rel.bind (M.Rel.modify fun _ _ => rfl) fun _ => M.Rel.pure _
  | g19 => exact M.Rel.bind (M.Rel.modify fun _ _ => rfl) fun _ => M.Rel.pure _
  | g20 =>
    refine M.Rel.bind (fun s s' h => ⟨rfl, ?_⟩) fun _ => M.Rel.pure _
    unfold SameButUnit at h ⊢
    change ({ s with conv := _ } : MState F) = _
    rw [h]
    rfl
  | g21 =>
    refine M.Rel.bind (fun s s' h => ⟨rfl, ?_⟩) fun _ => M.Rel.pure _
    unfold SameButUnit at h ⊢
    change ({ s with conv := _ } : MState F) = _
    rw [h]
    rfl
  | g28 => exact M.Rel.bind (home_rel hhas) fun _ => M.Rel.pure _
  | g53 => exact M.Rel.bind (M.Rel.modify fun _ _ => rfl) fun _ => M.Rel.pure _
  | g90 => exact M.Rel.bind (M.Rel.modify fun _ _ => rfl) fun _ => M.Rel.pure _
  | g91 => exact M.Rel.bind (M.Rel.modify fun _ _ => rfl) fun _ => M.Rel.pure _
  | m3 =>
    refine M.Rel.get fun s s' h => ?_
    rw [hS, show s.spindle = s'.spindle by rw [h]]
    refine M.Rel.bind (M.Rel.lift _) fun rpm => ?_
    have h1 : M.Rel (do
        spindle c rpm
        M.modify fun s => { s with spindle := rpm }
        return none : M F (Option (Answer F))) (do
        spindle c rpm
        M.modify fun s => { s with spindle := rpm }
        return none) :=
      M.Rel.bind (spindle_rel _) fun _ => M.Rel.bind (M.Rel.modify fun _ _ => rfl)
        fun _ => M.Rel.pure _
    exact M.Rel.ite (M.Rel.bind (M.Rel.throw _) fun _ => h1) h1
  | m5 => exact M.Rel.bind (spindle_rel _) fun _ => M.Rel.pure _
  | finish =>
    refine M.Rel.bind (fun s s' h => ⟨rfl, ?_⟩) fun _ => M.Rel.pure _
    unfold SameButUnit at h ⊢
    change ({ s with vel := _, spindle := _, loc := _, conv := _, absMode := _, plane := _ } :
      MState F) = _
    rw [h]
    rfl
  | m84 => exact M.Rel.bind (M.Rel.emit _) fun _ => M.Rel.pure _
  | heat h w =>
    refine M.Rel.bind ?_ fun _ => M.Rel.pure _
    unfold heatCommand
    rw [hS', hS]
    have h1 : M.Rel (do
        let t ← M.lift (g'.get 'S' (zeroF : F) (PyNum.ofRat 1))
        if (PyNum.ofRat (heaterMax c h) <ₚ t || t <ₚ PyNum.ofRat c.minT) && !(t =ₚ zeroF) then
          M.throw (.gmachine "bad temperature")
        heat c env h t w : M F Unit) (do
        let t ← M.lift (g'.get 'S' (zeroF : F) (PyNum.ofRat 1))
        if (PyNum.ofRat (heaterMax c h) <ₚ t || t <ₚ PyNum.ofRat c.minT) && !(t =ₚ zeroF) then
          M.throw (.gmachine "bad temperature")
        heat c env h t w) :=
      M.Rel.bind (M.Rel.lift _) fun t =>
        M.Rel.ite (M.Rel.bind (M.Rel.throw _) fun _ => heat_rel _ _ _) (heat_rel _ _ _)
    exact M.Rel.ite (M.Rel.bind (M.Rel.throw _) fun _ => h1) h1
  | m105 =>
    exact M.Rel.bind (measure_rel _) fun et => M.Rel.bind (measure_rel _) fun bt =>
      M.Rel.ite (M.Rel.bind (M.Rel.throw _) fun _ => M.Rel.pure _) (M.Rel.pure _)
  | m106 =>
    unfold execCmd
    dsimp only
    rw [hS]
    exact M.Rel.bind (M.Rel.lift _) fun v =>
      M.Rel.ite (M.Rel.bind (fan_rel _) fun _ => M.Rel.pure _)
        (M.Rel.bind (fan_rel _) fun _ => M.Rel.pure _)
  | m107 => exact M.Rel.bind (fan_rel _) fun _ => M.Rel.pure _
  | m111 => exact M.Rel.bind (M.Rel.emit _) fun _ => M.Rel.pure _
  | m114 =>
    refine M.Rel.bind (M.Rel.emit _) fun _ => M.Rel.bind (M.Rel.emit _) fun _ =>
      M.Rel.get fun s s' h => ?_
    rw [show s.pos = s'.pos by rw [h]]
    exact M.Rel.pure _
  | nothing => exact M.Rel.pure _
  | m82 =>
    refine M.Rel.get fun s s' h => ?_
    rw [show s.absMode = s'.absMode by rw [h]]
    exact M.Rel.ite (M.Rel.bind (M.Rel.throw _) fun _ => M.Rel.pure _) (M.Rel.pure _)
  | m83 =>
    refine M.Rel.get fun s s' h => ?_
    rw [show s.absMode = s'.absMode by rw [h]]
    exact M.Rel.ite (M.Rel.bind (M.Rel.throw _) fun _ => M.Rel.pure _) (M.Rel.pure _)
  | unknown => exact M.Rel.throw _

theorem doCommand_units {g g' : GCode} {s s' : MState F}
    (hget : ∀ k ∈ ['X', 'Y', 'Z', 'E', 'I', 'J', 'K'], ∀ d : F,
      g.get k d s.conv = g'.get k d s'.conv)
    (hother : ∀ k, k ∉ ['X', 'Y', 'Z', 'E', 'I', 'J', 'K'] →
      g.params.lookup k = g'.params.lookup k)
    (hhas : ∀ k ∈ ['X', 'Y', 'Z', 'E', 'I', 'J', 'K'], g.has k = g'.has k)
    (heq : SameButUnit s s') :
    (doCommand c env (some g) s).1 = (doCommand c env (some g') s').1 ∧
    { (doCommand c env (some g') s').2 with conv := (doCommand c env (some g) s).2.conv } =
      (doCommand c env (some g) s).2 := by
  suffices h : (doCommand c env (some g) s).1 = (doCommand c env (some g') s').1 ∧
      SameButUnit (doCommand c env (some g) s).2 (doCommand c env (some g') s').2 from
    ⟨h.1, h.2.symm⟩
  have hco : ∀ d : V4 F, g.coordinates d s.conv = g'.coordinates d s'.conv := fun d => by
    unfold GCode.coordinates
    rw [hget 'X' (by simp), hget 'Y' (by simp), hget 'Z' (by simp), hget 'E' (by simp)]
  have hra : ∀ d : V4 F, g.radius d s.conv = g'.radius d s'.conv := fun d => by
    unfold GCode.radius
    rw [hget 'I' (by simp), hget 'J' (by simp), hget 'K' (by simp)]
  have hd : readDelta s g = readDelta s' g' := by
    unfold readDelta
    rw [hco, hco, show s.pos = s'.pos by rw [heq], show s.loc = s'.loc by rw [heq],
      show s.absMode = s'.absMode by rw [heq]]
  have hF : g.get 'F' s.vel (PyNum.ofRat 1) = g'.get 'F' s'.vel (PyNum.ofRat 1) := by
    unfold GCode.get GCode.lookup
    rw [hother 'F' (by decide), show s.vel = s'.vel by rw [heq]]
  have hcoord : g.hasCoordinates = g'.hasCoordinates := by
    unfold GCode.hasCoordinates
    rw [hhas 'X' (by simp), hhas 'Y' (by simp), hhas 'Z' (by simp), hhas 'E' (by simp)]
  have hcmd : lineCmd g = lineCmd g' := by
    unfold lineCmd GCode.command GCode.lookup
    rw [hother 'G' (by decide), hother 'M' (by decide), hcoord]
  have hexec : ∀ d r v, (execCmd c env (lineCmd g) g d r v s).1 =
      (execCmd c env (lineCmd g) g' d r v s').1 ∧
      SameButUnit (execCmd c env (lineCmd g) g d r v s).2 (execCmd c env (lineCmd g) g' d r v s').2 := by
    intro d r v
    by_cases h92 : lineCmd g = .g92
    · rw [h92]
      unfold execCmd setLocal
      dsimp only
      rw [hcoord]
      cases hh : g'.hasCoordinates
      · refine ⟨rfl, ?_⟩
        exact heq.upd (f := fun t => { t with loc := t.pos }) fun _ _ => rfl
      · have hx : g.coordinates (Coord.new (s.pos.x -ₚ s.loc.x) (s.pos.y -ₚ s.loc.y)
            (s.pos.z -ₚ s.loc.z) (s.pos.e -ₚ s.loc.e)) s.conv =
            g'.coordinates (Coord.new (s'.pos.x -ₚ s'.loc.x) (s'.pos.y -ₚ s'.loc.y)
            (s'.pos.z -ₚ s'.loc.z) (s'.pos.e -ₚ s'.loc.e)) s'.conv := by
          rw [hco, show s.pos = s'.pos by rw [heq], show s.loc = s'.loc by rw [heq]]
        have key : ∀ x : Except PyErr (V4 F), M.Rel (do
              let v ← M.lift x
              M.modify fun s => { s with loc := Coord.sub s.pos v }
              return none : M F (Option (Answer F))) (do
              let v ← M.lift x
              M.modify fun s => { s with loc := Coord.sub s.pos v }
              return none) := fun x =>
          M.Rel.bind (M.Rel.lift _) fun v => M.Rel.bind (M.Rel.modify fun _ _ => rfl)
            fun _ => M.Rel.pure _
        have := key (g'.coordinates (Coord.new (s'.pos.x -ₚ s'.loc.x) (s'.pos.y -ₚ s'.loc.y)
            (s'.pos.z -ₚ s'.loc.z) (s'.pos.e -ₚ s'.loc.e)) s'.conv) s s' heq
        rcases hr : g'.coordinates (Coord.new (s'.pos.x -ₚ s'.loc.x) (s'.pos.y -ₚ s'.loc.y)
            (s'.pos.z -ₚ s'.loc.z) (s'.pos.e -ₚ s'.loc.e)) s'.conv with e | v
        · rw [hr] at this hx
          simp only [M.bind_run, M.get_run, M.lift, hx, hr, if_true]
          exact ⟨trivial, heq⟩
        · rw [hr] at this hx
          simp only [M.bind_run, M.get_run, M.lift, hx, hr, if_true]
          exact this
    · exact execCmd_rel d r v h92 hother hhas s s' heq
  rcases doCommand_cases (c := c) (env := env) g s with ⟨e, h1, h2⟩ |
    ⟨d, v, r, h2, h3, h4, hr⟩
  · rcases doCommand_cases (c := c) (env := env) g' s' with ⟨e', h1', h2'⟩ |
      ⟨d', v', r', h2', h3', h4', _⟩
    · rw [h1, h1']
      refine ⟨?_, heq⟩
      have he : e = .value := by
        rcases h2 with h2 | h2 | h2
        · exact (readDelta_error h2).1
        · exact (get_error h2).1
        · exact (radius_error h2).1
      have he' : e' = .value := by
        rcases h2' with h2 | h2 | h2
        · exact (readDelta_error h2).1
        · exact (get_error h2).1
        · exact (radius_error h2).1
      rw [he, he']
    · rw [hd, hF, hra, h2', h3', h4'] at h2
      rcases h2 with h2 | h2 | h2 <;> cases h2
  · rcases doCommand_cases (c := c) (env := env) g' s' with ⟨e', h1', h2'⟩ |
      ⟨d', v', r', h2', h3', h4', hr'⟩
    · rw [← hd, ← hF, ← hra, h2, h3, h4] at h2'
      rcases h2' with h2 | h2 | h2 <;> cases h2
    · rw [hd, h2'] at h2
      rw [hF, h3'] at h3
      rw [hra, h4'] at h4
      cases h2; cases h3; cases h4
      rw [← hcmd] at hr'
      have h1 := hexec d r v
      rcases hr with ⟨hv, h⟩ | ⟨hv, ⟨a, s2, hx, h⟩ | ⟨e, s2, hx, h⟩⟩ <;>
        rcases hr' with ⟨hv', h'⟩ | ⟨hv', ⟨a', s2', hx', h'⟩ | ⟨e', s2', hx', h'⟩⟩ <;> rw [h, h']
      · exact ⟨rfl, heq⟩
      · rw [hv] at hv'; cases hv'
      · rw [hv] at hv'; cases hv'
      · rw [hv] at hv'; cases hv'
      · rw [hx, hx'] at h1
        exact ⟨h1.1, h1.2.upd (f := fun t => { t with vel := v }) fun _ _ => rfl⟩
      · rw [hx, hx'] at h1; cases h1.1
      · rw [hv] at hv'; cases hv'
      · rw [hx, hx'] at h1; cases h1.1
      · rw [hx, hx'] at h1
        exact ⟨h1.1, h1.2⟩

end PyCNC
