import Verif.Lemmas.Bridge

/-!
# Which exceptions the machine raises
-/

namespace PyCNC

open Spec

/-- From states with `P`, the computation keeps `P` and raises only exceptions with `R`. -/
def M.Raises {F α : Type} (P : MState F → Prop) (R : PyErr → Prop) (m : M F α) : Prop :=
  ∀ s, P s → (∀ a s', m s = (.ok a, s') → P s') ∧ ∀ e s', m s = (.error e, s') → R e

namespace M.Raises

variable {F α β : Type} {P : MState F → Prop} {R : PyErr → Prop}

theorem bind {m : M F α} {f : α → M F β} (hm : M.Raises P R m) (hf : ∀ a, M.Raises P R (f a)) :
    M.Raises P R (m >>= f) := by
  intro s hs
  obtain ⟨h1, h2⟩ := hm s hs
  rcases he : m s with ⟨e | a, s1⟩
  · rw [M.bind_error he]
    refine ⟨fun a s' h => by simp at h, fun e' s' h => ?_⟩
    simp only [Prod.mk.injEq, Except.error.injEq] at h
    exact h.1 ▸ h2 e s1 he
  · rw [M.bind_ok he]
    exact hf a s1 (h1 a s1 he)

theorem get_bind {f : MState F → M F β} (hf : ∀ s, P s → 
    (∀ a s', f s s = (.ok a, s') → P s') ∧ ∀ e s', f s s = (.error e, s') → R e) :
    M.Raises P R (M.get >>= f) := fun s hs => by
  rw [M.bind_get]; exact hf s hs

theorem pure (a : α) : M.Raises P R (Pure.pure a : M F α) := fun s hs =>
  ⟨fun a s' h => by simp at h; exact h.2 ▸ hs, fun e s' h => by simp at h⟩

theorem get : M.Raises P R (M.get : M F _) := fun s hs =>
  ⟨fun a s' h => by simp at h; exact h.2 ▸ hs, fun e s' h => by simp at h⟩

theorem throw {e : PyErr} (h : R e) : M.Raises P R (M.throw e : M F α) := fun s hs =>
  ⟨fun a s' h => by simp at h, fun e' s' h' => by simp at h'; exact h'.1 ▸ h⟩

theorem lift {x : Except PyErr α} (h : ∀ e, x = .error e → R e) :
    M.Raises P R (M.lift x : M F α) := fun s hs =>
  ⟨fun a s' h => by simp at h; exact h.2 ▸ hs, fun e' s' h' => by
    simp at h'; exact h e' h'.1⟩

theorem modify {f : MState F → MState F} (h : ∀ s, P s → P (f s)) :
    M.Raises P R (M.modify f) := fun s hs =>
  ⟨fun a s' h' => by simp at h'; exact h' ▸ h s hs, fun e s' h => by simp at h⟩

theorem emit {call : HalCall F} (h : ∀ s, P s → P { s with trace := call :: s.trace }) :
    M.Raises P R (M.emit call) := modify h

theorem ite {b : Prop} [Decidable b] {m n : M F α} (hm : M.Raises P R m) (hn : M.Raises P R n) :
    M.Raises P R (if b then m else n) := by
  split <;> assumption

end M.Raises

section exact

variable [PyRound] {c : Cfg} {env : Env ℝ}

/-- The invariant of the machine that the moves need. -/
def Fit (c : Cfg) (s : MState ℝ) : Prop := InTable c s.pos

omit [PyRound] in
theorem checkDelta_reported {F : Type} [PyNum F] {c : Cfg} {p d : V4 F} {e : PyErr}
    (h : checkDelta c p d = .error e) : Reported e := by
  unfold checkDelta at h
  split at h
  · cases h
  · cases h; trivial

omit [PyRound] in
theorem checkVelocity_reported {F : Type} [PyNum F] {c : Cfg} {v : V4 F} {e : PyErr}
    (h : checkVelocity c v = .error e) : Reported e := by
  unfold checkVelocity at h
  split at h
  · cases h; trivial
  · cases h

theorem moveLinear_raises (hc : SaneMachine c) (hmove : ∀ tr, env.move tr = none) {d : V4 ℝ}
    {v : ℝ} (he : |(roundToSteps c d).e| ≤ 10 ^ 4) (hv : 1 ≤ v) :
    M.Raises (Fit c) Reported (moveLinear c env d v) := by
  intro s hs
  rcases moveLinear_cases (c := c) (env := env) d v s with ⟨_, h⟩ | ⟨hz, e, h, hr⟩ |
    ⟨_, g, hck, _, _, ⟨e, hm, h⟩ | ⟨_, h⟩⟩
  · rw [h]
    refine ⟨fun a s' h' => ?_, fun e s' h' => by simp at h'⟩
    simp only [Prod.mk.injEq, true_and] at h'
    exact h' ▸ hs
  · rw [h]
    refine ⟨fun a s' h' => by simp at h', fun e' s' h' => ?_⟩
    simp only [Prod.mk.injEq, Except.error.injEq] at h'
    obtain ⟨rfl, rfl⟩ := h'
    rcases hck : checkDelta c s.pos (roundToSteps c d) with e' | _
    · have h2 : moveLinear c env d v s = (.error e', s) := by
        simp only [moveLinear, hz, Bool.false_eq_true, if_false, M.bind_get, hck,
          M.bind_lift_error]
      rw [h] at h2
      simp only [Prod.mk.injEq, Except.error.injEq, and_true] at h2
      exact h2 ▸ checkDelta_reported hck
    · rcases hr with hr | hr | ⟨g, _, hr⟩
      · exact checkDelta_reported hr
      · obtain ⟨g, _, _, h1, _⟩ := linear_new hc.cfg (ordinary_of_check hc hs hz hck he hv)
        rw [h1] at hr; cases hr
      · exact checkVelocity_reported hr
  · rw [hmove] at hm; cases hm
  · rw [h]
    refine ⟨fun a s' h' => ?_, fun e s' h' => by simp at h'⟩
    simp only [Prod.mk.injEq, true_and] at h'
    subst h'
    exact checkDelta_inTable hc.table hs.grid hck

theorem roundToSteps_e_le (hc : SaneMachine c) {d : V4 ℝ} (h : |d.e| ≤ 9999) :
    |(roundToSteps c d).e| ≤ 10 ^ 4 := by
  have := roundToSteps_abs_le (c := c) d .e hc.ppmE
  simp only [V4.get] at this
  linarith

theorem safeZero_raises (hc : SaneMachine c) (hmove : ∀ tr, env.move tr = none) {x y z : Bool} :
    M.Raises (Fit c) Reported (safeZero c env x y z) := by
  have m60 : ∀ ax, (1 : ℝ) ≤ (c.maxVel.get ax : ℝ) := fun ax => by
    have : (60 : ℝ) ≤ c.maxVel.get ax := by exact_mod_cast hc.cfg.maxVel ax
    linarith
  have mx := m60 .x
  have my := m60 .y
  have mz := m60 .z
  simp only [V4.get] at mx my mz
  have hmv : ∀ (a b e : ℝ) {v : ℝ}, 1 ≤ v →
      M.Raises (Fit c) Reported (moveLinear c env (Coord.new a b e zeroF) v) := by
    intro a b e v hv
    refine moveLinear_raises hc hmove (roundToSteps_e_le hc ?_) hv
    have : (Coord.new a b e zeroF : V4 ℝ).e = 0 := by
      simp only [Coord.new, zeroF_eq, round10_zero]
    rw [this]; norm_num
  have hmx : (1 : ℝ) ≤ PyNum.ofRat c.maxVel.x := by simpa using mx
  have hmz : (1 : ℝ) ≤ PyNum.ofRat c.maxVel.z := by simpa using mz
  have hmxy : (1 : ℝ) ≤ pmin (PyNum.ofRat c.maxVel.x) (PyNum.ofRat c.maxVel.y) := by
    rw [pmin_eq]
    exact le_min (by simpa using mx) (by simpa using my)
  unfold safeZero
  refine M.Raises.bind .get fun s => ?_
  cases x <;> cases y <;> cases z <;>
    simp only [Bool.not_true, Bool.not_false, Bool.and_true, Bool.and_false, Bool.false_eq_true,
      if_false, if_true, Bool.and_self]
  · exact .pure _
  · exact .bind .get fun s => hmv _ _ _ hmz
  · exact .bind (hmv _ _ _ hmx) fun _ => .pure _
  · exact .bind (hmv _ _ _ hmx) fun _ => .bind .get fun s => hmv _ _ _ hmz
  · exact .bind (hmv _ _ _ hmx) fun _ => .pure _
  · exact .bind (hmv _ _ _ hmx) fun _ => .bind .get fun s => hmv _ _ _ hmz
  · exact .bind (hmv _ _ _ hmxy) fun _ => .pure _
  · exact .bind (hmv _ _ _ hmxy) fun _ => .bind .get fun s => hmv _ _ _ hmz

omit [PyRound] in
theorem emit_raises {R : PyErr → Prop} (call : HalCall ℝ) :
    M.Raises (Fit c) R (M.emit call) := .emit fun _ h => h

theorem get_raises {g : GCode} (hn : NumbersOk g) {k : Char} {d m : ℝ} (e : PyErr)
    (h : g.get k d m = .error e) : Reported e := by
  obtain ⟨_, t, h1, h2⟩ := get_error h
  exact absurd h2 (hn _ (mem_of_lookup h1))

omit [PyRound] in
theorem fan_raises {R : PyErr → Prop} (b : Bool) : M.Raises (Fit c) R (fan b) :=
  .bind (emit_raises _) fun _ => .modify fun _ h => h

theorem spindle_raises {R : PyErr → Prop} (v : ℝ) : M.Raises (Fit c) R (spindle c v) :=
  .bind (emit_raises _) fun _ => emit_raises _

omit [PyRound] in
theorem setHeater_pos (s : MState ℝ) (h : HeaterId) (t : Option ℝ) :
    (s.setHeater h t).pos = s.pos := by cases h <;> rfl

theorem heat_raises (henv : GoodEnv env) (h : HeaterId) (t : ℝ) (w : Bool) :
    M.Raises (Fit c) Reported (heat c env h t w) := by
  intro s hs
  have h1 : (heatStopped h s).pos = s.pos := by
    unfold heatStopped
    split
    · rw [setHeater_pos]
    · rfl
  have h2 : (heatFan c h (heatStopped h s)).pos = s.pos := by
    unfold heatFan
    split
    · exact h1
    · exact h1
  rcases heat_cases (c := c) (env := env) h t w s with ⟨_, h'⟩ | ⟨_, _, h'⟩ |
    ⟨_, _, s2, e2, ⟨hm, h'⟩ | ⟨_, ⟨_, h'⟩ | ⟨_, ⟨e', he, h'⟩ | ⟨_, h'⟩⟩⟩⟩ <;> rw [h']
  · refine ⟨fun a s' h => by simp at h, fun e s' h => ?_⟩
    simp only [Prod.mk.injEq, Except.error.injEq] at h
    exact h.1 ▸ trivial
  · refine ⟨fun a s' h => ?_, fun e s' h => by simp at h⟩
    simp only [Prod.mk.injEq, true_and] at h
    unfold Fit
    rw [← h, h1]
    exact hs
  · exact absurd hm (henv.measure _)
  · refine ⟨fun a s' h => ?_, fun e s' h => by simp at h⟩
    simp only [Prod.mk.injEq, true_and] at h
    unfold Fit
    rw [← h, setHeater_pos, e2]
    exact h2 ▸ hs
  · rw [henv.wait] at he; cases he
  · refine ⟨fun a s' h => ?_, fun e s' h => by simp at h⟩
    simp only [Prod.mk.injEq, true_and] at h
    unfold Fit
    rw [← h]
    change InTable c (MState.setHeater s2 _ (some t)).pos
    rw [setHeater_pos, e2]
    exact h2 ▸ hs

theorem execCmd_raises (hc : SaneMachine c) (henv : GoodEnv env) {cmd : Cmd} {g : GCode}
    (hn : NumbersOk g) {d r : V4 ℝ} {v : ℝ} (hd : GridV d) (he : |d.e| ≤ 9999) (hv : 1 ≤ v)
    (h2 : cmd ≠ .g2) (h3 : cmd ≠ .g3) :
    M.Raises (Fit c) Reported (execCmd c env cmd g d r v) := by
  have he' := roundToSteps_e_le hc he
  have mo : ∀ {f : MState ℝ → MState ℝ}, (∀ s, (f s).pos = s.pos) →
      M.Raises (Fit c) Reported (M.modify f) :=
    fun h1 => .modify fun s h => by unfold Fit; rw [h1]; exact h
  have gm : ∀ {α : Type} (msg : String), M.Raises (Fit c) Reported
      (M.throw (.gmachine msg) : M ℝ α) := fun msg => .throw trivial
  cases cmd with
  | g0 =>
    obtain ⟨w, hw, hw60⟩ := rapidVelocity_ok hc.cfg hd
    simp only [execCmd, hw]
    intro s hs
    rw [M.bind_lift_ok]
    exact M.Raises.bind (moveLinear_raises hc henv.move he' (by linarith)) (fun _ => .pure _) s hs
  | g1 => exact .bind (moveLinear_raises hc henv.move he' hv) fun _ => .pure _
  | g2 => exact absurd rfl h2
  | g3 => exact absurd rfl h3
  | g4 =>
    have : M.Raises (Fit c) Reported (do
        let pause ← M.lift (g.get 'P' zeroF (PyNum.ofRat 1 : ℝ))
        if pause <ₚ zeroF then M.throw (.gmachine "bad delay")
        M.emit .join
        M.emit (.sleep pause)
        return none : M ℝ (Option (Answer ℝ))) := by
      refine .bind (.lift (get_raises hn)) fun p => ?_
      split
      · exact gm _
      · exact .bind (emit_raises _) fun _ => .bind (emit_raises _) fun _ => .pure _
    simp only [execCmd]
    split
    · exact gm _
    · exact this
  | g28 =>
    refine .bind ?_ fun _ => .pure _
    unfold home
    split
    refine .bind (safeZero_raises hc henv.move) fun _ => .bind (emit_raises _) fun _ =>
      .bind (emit_raises _) fun _ => .bind .get fun s => .ite (.pure _) (gm _)
  | g92 =>
    refine .bind ?_ fun _ => .pure _
    unfold setLocal
    refine .bind .get fun s => .ite (.bind (.lift fun e h => ?_) fun _ => mo fun _ => rfl)
      (mo fun _ => rfl)
    obtain ⟨_, k, t, h1, h2⟩ := coordinates_error h
    exact absurd h2 (hn _ (mem_of_lookup h1))
  | m3 =>
    simp only [execCmd]
    refine .bind .get fun s => .bind (.lift (get_raises hn)) fun p => ?_
    split
    · exact gm _
    · exact .bind (spindle_raises _) fun _ => .bind (mo fun _ => rfl) fun _ => .pure _
  | heat h w =>
    refine .bind ?_ fun _ => .pure _
    unfold heatCommand
    split
    · exact gm _
    · refine .bind (.lift (get_raises hn)) fun p => ?_
      split
      · exact gm _
      · exact heat_raises henv h p w
  | m105 =>
    simp only [execCmd]
    intro s hs
    rw [bind_measure, bind_measure]
    split
    · exact gm _ _ hs
    · exact M.Raises.pure _ _ hs
  | m106 =>
    simp only [execCmd]
    refine .bind (.lift (get_raises hn)) fun p => ?_
    split
    · exact .bind (fan_raises _) fun _ => .pure _
    · exact .bind (fan_raises _) fun _ => .pure _
  | m82 =>
    simp only [execCmd]
    refine .bind .get fun s => ?_
    split
    · exact gm _
    · exact .pure _
  | m83 =>
    simp only [execCmd]
    refine .bind .get fun s => ?_
    split
    · exact gm _
    · exact .pure _
  | unknown => exact gm _
  | nothing => exact .pure _
  | m114 =>
    exact .bind (emit_raises _) fun _ => .bind (emit_raises _) fun _ => .bind .get fun s => .pure _
  | m5 => exact .bind (spindle_raises _) fun _ => .pure _
  | finish => exact .bind (mo fun _ => rfl) fun _ => .pure _
  | m84 => exact .bind (emit_raises _) fun _ => .pure _
  | m107 => exact .bind (fan_raises _) fun _ => .pure _
  | m111 => exact .bind (emit_raises _) fun _ => .pure _
  | _ => exact .bind (mo fun _ => rfl) fun _ => .pure _

/-- A line with well formed numbers that is no arc raises only what `main` reports. -/
theorem doCommand_raises (hc : SaneMachine c) (henv : GoodEnv env) {g : GCode} {s : MState ℝ}
    (ht : Tidy s) (hs : InTable c s.pos) (hn : NumbersOk g) (ha : ¬ IsArc g) (he : SmallE g s)
    (e : PyErr) (s' : MState ℝ) (h : doCommand c env (some g) s = (.error e, s')) :
    Reported e := by
  rcases doCommand_cases (c := c) (env := env) g s with ⟨e', h1, h2⟩ |
    ⟨d, v, r, hd, hv, _, ⟨_, h1⟩ | ⟨hmin, ⟨a, s2, hx, h1⟩ | ⟨e', s2, hx, h1⟩⟩⟩ <;> rw [h] at h1 <;>
    simp only [Prod.mk.injEq, reduceCtorEq, false_and, Except.error.injEq] at h1
  · obtain ⟨rfl, rfl⟩ := h1
    rcases h2 with h2 | h2 | h2
    · obtain ⟨_, k, t, h3, h4⟩ := readDelta_error h2
      exact absurd h4 (hn _ (mem_of_lookup h3))
    · obtain ⟨_, t, h3, h4⟩ := get_error h2
      exact absurd h4 (hn _ (mem_of_lookup h3))
    · obtain ⟨_, k, t, h3, h4⟩ := radius_error h2
      exact absurd h4 (hn _ (mem_of_lookup h3))
  · rw [h1.1]; trivial
  · obtain ⟨rfl, rfl⟩ := h1
    obtain ⟨hg, hax⟩ := readDelta_ok ht hd
    have he' : |d.e| ≤ 9999 := by
      rcases hax .e with ⟨q, hq, h2⟩ | ⟨_, h2⟩
      · have h3 := he q hq
        simp only [V4.get] at h2
        have gt : Grid (if s.absMode = true then s.loc.e - s.pos.e else 0) := by
          split
          · exact (ht.loc .e).sub (ht.pos .e)
          · exact Grid.zero
        have g1 : Grid (9999 : ℝ) := by simpa using Grid.int 9999
        obtain ⟨h4, h5⟩ := abs_le.1 h3
        rw [h2, abs_le]
        constructor
        · have := le_round10_grid (x := (q : ℝ) * s.conv) (g1.neg.sub gt) (by linarith)
          linarith
        · have := round10_le_grid (x := (q : ℝ) * s.conv) (g1.sub gt) (by linarith)
          linarith
      · simp only [V4.get] at h2
        rw [h2]; norm_num
    have hv1 : (1 : ℝ) ≤ v := by
      rw [lt_false_iff, ofRat_eq] at hmin
      have : (1 : ℝ) ≤ c.minVel := by exact_mod_cast hc.minVel
      linarith
    refine (execCmd_raises hc henv hn hg he' hv1 ?_ ?_ s hs).2 _ _ hx
    · intro h2
      rcases lineCmd_is h2 (by simp) (by simp) with ⟨p, hp, hi⟩ | ⟨h3, _⟩
      · simp only [Cmd.words, List.mem_singleton] at hp
        subst hp
        exact ha (.inl hi)
      · cases h3
    · intro h2
      rcases lineCmd_is h2 (by simp) (by simp) with ⟨p, hp, hi⟩ | ⟨h3, _⟩
      · simp only [Cmd.words, List.mem_singleton] at hp
        subst hp
        exact ha (.inr hi)
      · cases h3

end exact

end PyCNC
