import Verif.Spec.Pulses
import Verif.Spec.Numbers
import Verif.Lemmas.Coordinates

/-!
# Lemmas about the iterator of pulse generators and about linear moves
-/

set_option linter.unusedSectionVars false

namespace PyCNC

open Spec

section Any

variable {F : Type} [PyNum F]

theorem linearTime_none {i : Nat} {ppm : Rat} {total : Int} {v : F}
    (h : linearTime i ppm total v = .ok none) : total.toNat ≤ i := by
  unfold linearTime at h
  split at h
  · omega
  · unfold pdiv at h
    split at h <;> cases h

theorem linearTime_some {i : Nat} {ppm : Rat} {total : Int} {v t : F}
    (h : linearTime i ppm total v = .ok (some t)) : i < total.toNat := by
  unfold linearTime at h
  split at h
  · cases h
  · omega

/-- The time of the next pulse of one axis. -/
def LinearGen.time (c : Cfg) (g : LinearGen F) (ax : Axis) (i : Nat) : Except PyErr (Option F) :=
  linearTime i (c.ppm.get ax) (g.total.get ax) (g.maxV.get ax)

theorem linear_interp {c : Cfg} {g : LinearGen F} {it : V4 Nat} {d : V4 Int} {t : V4 (Option F)}
    (h : g.interp c it = .ok (d, t)) : d = g.dir ∧ ∀ ax, g.time c ax (it.get ax) = .ok (t.get ax) := by
  unfold LinearGen.interp at h
  rcases h1 : linearTime it.x c.ppm.x g.total.x g.maxV.x with e | tx
  · rw [h1] at h; cases h
  rcases h2 : linearTime it.y c.ppm.y g.total.y g.maxV.y with e | ty
  · rw [h1, h2] at h; cases h
  rcases h3 : linearTime it.z c.ppm.z g.total.z g.maxV.z with e | tz
  · rw [h1, h2, h3] at h; cases h
  rcases h4 : linearTime it.e c.ppm.e g.total.e g.maxV.e with e | te
  · rw [h1, h2, h3, h4] at h; cases h
  rw [h1, h2, h3, h4] at h
  cases h
  refine ⟨rfl, fun ax => ?_⟩
  cases ax
  · exact h1
  · exact h2
  · exact h3
  · exact h4

theorem linear_interp_ok {c : Cfg} {g : LinearGen F} {it : V4 Nat} {t : V4 (Option F)}
    (h : ∀ ax, g.time c ax (it.get ax) = .ok (t.get ax)) : g.interp c it = .ok (g.dir, t) := by
  have h1 : linearTime it.x c.ppm.x g.total.x g.maxV.x = .ok t.x := h .x
  have h2 : linearTime it.y c.ppm.y g.total.y g.maxV.y = .ok t.y := h .y
  have h3 : linearTime it.z c.ppm.z g.total.z g.maxV.z = .ok t.z := h .z
  have h4 : linearTime it.e c.ppm.e g.total.e g.maxV.e = .ok t.e := h .e
  unfold LinearGen.interp
  rw [h1, h2, h3, h4]
  rfl

/-- The two results of firing an axis, for all axes. -/
def fired (t : V4 (Option F)) (m am : F) (it : V4 Nat) : V4 (Option F) :=
  V4.ofFn fun ax => (fireAxis (t.get ax) m am (it.get ax)).1

/-- The new iteration numbers. -/
def advanced (t : V4 (Option F)) (m am : F) (it : V4 Nat) : V4 Nat :=
  V4.ofFn fun ax => (fireAxis (t.get ax) m am (it.get ax)).2

theorem get_ofFn {α : Type} (f : Axis → α) (ax : Axis) : (V4.ofFn f).get ax = f ax := by
  cases ax <;> rfl

/-- The five ways `next` can go, for any generator. -/
theorem next_cases (c : Cfg) (g : Gen F) (s : GenState) :
    (∃ e, g.interp c s.it = .error e ∧ g.next c s = .error e) ∨
    ∃ d t, g.interp c s.it = .ok (d, t) ∧
      ((some d ≠ s.dir ∧ g.next c s = .ok (some (.dir (invertDirs c d), ⟨s.it, some d⟩))) ∨
       (some d = s.dir ∧ minTime t = none ∧ g.next c s = .ok none) ∨
       ∃ m, some d = s.dir ∧ minTime t = some m ∧
        ((∃ e, g.toAccelerated c m = .error e ∧ g.next c s = .error e) ∨
         ∃ am, g.toAccelerated c m = .ok am ∧
          g.next c s = .ok (some (.pulse (fired t m am s.it), ⟨advanced t m am s.it, s.dir⟩)))) := by
  unfold Gen.next
  rcases h1 : g.interp c s.it with e | ⟨d, t⟩
  · exact .inl ⟨e, rfl, rfl⟩
  · refine .inr ⟨d, t, rfl, ?_⟩
    by_cases hd : some d ≠ s.dir
    · refine .inl ⟨hd, ?_⟩
      change (if _ then _ else _) = _
      rw [if_pos hd]; rfl
    · refine .inr ?_
      push Not at hd
      rcases h2 : minTime t with _ | m
      · refine .inl ⟨hd, rfl, ?_⟩
        change (if _ then _ else _) = _
        rw [if_neg (by simpa using hd)]
        simp only [h2]; rfl
      · refine .inr ⟨m, hd, rfl, ?_⟩
        rcases h3 : g.toAccelerated c m with e | am
        · refine .inl ⟨e, rfl, ?_⟩
          change (if _ then _ else _) = _
          rw [if_neg (by simpa using hd)]
          simp only [h2, h3]; rfl
        · refine .inr ⟨am, rfl, ?_⟩
          change (if _ then _ else _) = _
          rw [if_neg (by simpa using hd)]
          simp only [h2, h3]; rfl

theorem minTime_none {t : V4 (Option F)} (h : minTime t = none) (ax : Axis) : t.get ax = none := by
  obtain ⟨tx, ty, tz, te⟩ := t
  unfold minTime at h
  cases tx <;> cases ty <;> cases tz <;> cases te <;> simp [List.foldl] at h <;>
    first
    | (cases ax <;> rfl)
    | (exfalso; revert h; repeat' split
       all_goals simp)

theorem fireAxis_cases (t : Option F) (m am : F) (i : Nat) :
    fireAxis t m am i = (none, i) ∨ (∃ τ, t = some τ ∧ (m <ₚ τ) = false ∧
      fireAxis t m am i = (some am, i + 1)) := by
  unfold fireAxis
  rcases t with _ | τ
  · exact .inl rfl
  · simp only
    by_cases h : (m <ₚ τ) = true
    · rw [if_pos h]; exact .inl rfl
    · rw [if_neg h]; exact .inr ⟨τ, rfl, by simpa using h, rfl⟩

theorem stepTimes_cons (ax : Axis) (ev : Event F) (r : List (Event F)) :
    stepTimes ax (ev :: r) = stepTimes ax [ev] ++ stepTimes ax r := by
  rcases ev with d | t
  · rfl
  · simp only [stepTimes]
    split <;> rfl

theorem stepTimes_append (ax : Axis) (a b : List (Event F)) :
    stepTimes ax (a ++ b) = stepTimes ax a ++ stepTimes ax b := by
  induction a with
  | nil => rfl
  | cons ev a ih =>
    rw [List.cons_append, stepTimes_cons, ih, stepTimes_cons ax ev a, List.append_assoc]

theorem steps_cons (ax : Axis) (ev : Event F) (r : List (Event F)) :
    steps ax (ev :: r) = steps ax [ev] + steps ax r := by
  unfold steps
  rw [stepTimes_cons, List.length_append]

/-- How `run` unfolds. -/
theorem run_succ (c : Cfg) (g : Gen F) (n : Nat) (s : GenState) :
    (∃ e, g.next c s = .error e ∧ g.run c (n + 1) s = ([], .raised e)) ∨
    (g.next c s = .ok none ∧ g.run c (n + 1) s = ([], .done)) ∨
    ∃ ev s', g.next c s = .ok (some (ev, s')) ∧
      g.run c (n + 1) s = (ev :: (g.run c n s').1, (g.run c n s').2) := by
  rcases h : g.next c s with e | _ | ⟨ev, s'⟩
  · exact .inl ⟨e, rfl, by simp [Gen.run, h]⟩
  · exact .inr (.inl ⟨rfl, by simp [Gen.run, h]⟩)
  · exact .inr (.inr ⟨ev, s', rfl, by simp [Gen.run, h]⟩)

/-- One call of `next` on a linear generator moves every iteration number by the number
of pulses sent, and never beyond the total. -/
theorem linear_next_it {c : Cfg} {g : LinearGen F} {s s' : GenState} {ev : Event F}
    (h : (Gen.linear g).next c s = .ok (some (ev, s'))) (ax : Axis) :
    s'.it.get ax = s.it.get ax + steps ax [ev] ∧
    (s.it.get ax ≤ (g.total.get ax).toNat → s'.it.get ax ≤ (g.total.get ax).toNat) := by
  rcases next_cases c (.linear g) s with ⟨e, _, h2⟩ | ⟨d, t, hi, h2⟩
  · rw [h] at h2; cases h2
  obtain ⟨_, ht⟩ := linear_interp hi
  rcases h2 with ⟨_, h2⟩ | ⟨_, _, h2⟩ | ⟨m, _, _, ⟨e, _, h2⟩ | ⟨am, _, h2⟩⟩ <;> rw [h] at h2 <;>
    cases h2
  · exact ⟨rfl, fun h => h⟩
  · have hf := fireAxis_cases (t.get ax) m am (s.it.get ax)
    simp only [advanced, get_ofFn, steps, stepTimes, fired]
    rcases hf with hf | ⟨τ, h1, _, hf⟩
    · rw [hf]; exact ⟨rfl, fun h => h⟩
    · rw [hf]
      refine ⟨rfl, fun _ => ?_⟩
      have h3 := ht ax
      rw [h1] at h3
      exact linearTime_some h3

/-- When `next` stops a linear generator, all pulses were sent. -/
theorem linear_next_stop {c : Cfg} {g : LinearGen F} {s : GenState}
    (h : (Gen.linear g).next c s = .ok none) (ax : Axis) :
    (g.total.get ax).toNat ≤ s.it.get ax := by
  rcases next_cases c (.linear g) s with ⟨e, _, h2⟩ | ⟨d, t, hi, h2⟩
  · rw [h] at h2; cases h2
  obtain ⟨_, ht⟩ := linear_interp hi
  rcases h2 with ⟨_, h2⟩ | ⟨_, hm, h2⟩ | ⟨m, _, _, ⟨e, _, h2⟩ | ⟨am, _, h2⟩⟩ <;> rw [h] at h2 <;>
    cases h2
  have h3 := ht ax
  rw [minTime_none hm ax] at h3
  exact linearTime_none h3

/-- The number of pulses of an axis never exceeds the total, and equals it at the end, in any
arithmetic. -/
theorem linear_run_steps (c : Cfg) (g : LinearGen F) (n : Nat) (s : GenState) (ax : Axis)
    (hs : s.it.get ax ≤ (g.total.get ax).toNat) :
    s.it.get ax + steps ax ((Gen.linear g).run c n s).1 ≤ (g.total.get ax).toNat ∧
    (((Gen.linear g).run c n s).2 = .done →
      s.it.get ax + steps ax ((Gen.linear g).run c n s).1 = (g.total.get ax).toNat) := by
  induction n generalizing s with
  | zero => exact ⟨hs, fun h => by cases h⟩
  | succ n ih =>
    rcases run_succ c (.linear g) n s with ⟨e, _, h⟩ | ⟨h1, h⟩ | ⟨ev, s', h1, h⟩ <;> rw [h]
    · exact ⟨hs, fun h => by cases h⟩
    · exact ⟨hs, fun _ => le_antisymm hs (linear_next_stop h1 ax)⟩
    · obtain ⟨h2, h3⟩ := linear_next_it h1 ax
      obtain ⟨h4, h5⟩ := ih s' (h3 hs)
      rw [steps_cons]
      constructor
      · omega
      · intro hd; have := h5 hd; omega

/-- After the direction was announced a linear generator only steps. -/
theorem linear_next_dir {c : Cfg} {g : LinearGen F} {s s' : GenState} {ev : Event F}
    (h : (Gen.linear g).next c s = .ok (some (ev, s'))) :
    s'.dir = some g.dir ∧ (s.dir = some g.dir → ∃ t, ev = .pulse t) ∧
    (s.dir ≠ some g.dir → ev = .dir (invertDirs c g.dir) ∧ s'.it = s.it) := by
  rcases next_cases c (.linear g) s with ⟨e, _, h2⟩ | ⟨d, t, hi, h2⟩
  · rw [h] at h2; cases h2
  obtain ⟨rfl, _⟩ := linear_interp hi
  rcases h2 with ⟨hd, h2⟩ | ⟨_, _, h2⟩ | ⟨m, hd, _, ⟨e, _, h2⟩ | ⟨am, _, h2⟩⟩ <;> rw [h] at h2 <;>
    cases h2
  · exact ⟨rfl, fun h => absurd h.symm hd, fun _ => ⟨rfl, rfl⟩⟩
  · exact ⟨hd.symm, fun _ => ⟨_, rfl⟩, fun h => absurd hd.symm h⟩

theorem linear_run_pulses (c : Cfg) (g : LinearGen F) (n : Nat) (s : GenState)
    (hs : s.dir = some g.dir) : ∀ ev ∈ ((Gen.linear g).run c n s).1, ∃ t, ev = .pulse t := by
  induction n generalizing s with
  | zero => intro ev h; cases h
  | succ n ih =>
    rcases run_succ c (.linear g) n s with ⟨e, _, h⟩ | ⟨h1, h⟩ | ⟨ev, s', h1, h⟩ <;> rw [h]
    · intro ev h; cases h
    · intro ev h; cases h
    · obtain ⟨h2, h3, _⟩ := linear_next_dir h1
      intro ev' hm
      rcases List.mem_cons.1 hm with rfl | hm
      · exact h3 hs
      · exact ih s' h2 ev' hm

/-- From its initial state a linear generator announces its direction once and then only
steps, or raises an exception at once. -/
theorem linear_run_shape (c : Cfg) (g : LinearGen F) (n : Nat) :
    (∃ e, (Gen.linear g).run c (n + 1) .init = ([], .raised e)) ∨
    ∃ r, ((Gen.linear g).run c (n + 1) .init).1 = .dir (invertDirs c g.dir) :: r ∧
      (∀ ev ∈ r, ∃ t, ev = .pulse t) ∧ (Gen.linear g).run c n ⟨⟨0, 0, 0, 0⟩, some g.dir⟩ =
        (r, ((Gen.linear g).run c (n + 1) .init).2) := by
  rcases run_succ c (.linear g) n .init with ⟨e, _, h⟩ | ⟨h1, h⟩ | ⟨ev, s', h1, h⟩
  · exact .inl ⟨e, h⟩
  · exfalso
    rcases next_cases c (.linear g) .init with ⟨e, _, h2⟩ | ⟨d, t, hi, h2⟩
    · rw [h1] at h2; cases h2
    rcases h2 with ⟨hd, h2⟩ | ⟨hd, _, h2⟩ | ⟨m, hd, _, ⟨e, _, h2⟩ | ⟨am, _, h2⟩⟩
    · rw [h1] at h2; cases h2
    all_goals cases hd
  · obtain ⟨h2, _, h3⟩ := linear_next_dir h1
    obtain ⟨rfl, h4⟩ := h3 (by simp [GenState.init])
    obtain ⟨it, dir⟩ := s'
    simp only at h2 h4
    subst h4 h2
    refine .inr ⟨_, by rw [h], linear_run_pulses c g n _ rfl, by rw [h]; rfl⟩

theorem netFrom_pulses (c : Cfg) (ax : Axis) (d : Int) (evs : List (Event F))
    (h : ∀ ev ∈ evs, ∃ t, ev = .pulse t) : netFrom c ax d evs = d * steps ax evs := by
  induction evs with
  | nil => simp [netFrom, steps, stepTimes]
  | cons ev r ih =>
    obtain ⟨t, rfl⟩ := h _ (List.mem_cons_self)
    rw [netFrom, ih fun ev hm => h ev (List.mem_cons_of_mem _ hm), steps_cons]
    rcases ht : t.get ax with _ | τ
    · simp [steps, stepTimes, ht]
    · simp [steps, stepTimes, ht]; ring

theorem get_invertDirs (c : Cfg) (d : V4 Int) (ax : Axis) :
    (invertDirs c d).get ax = if c.inverted.get ax then - d.get ax else d.get ax := by
  cases ax <;> rfl

/-- Net steps of a linear move, in any arithmetic. -/
theorem linear_run_net (c : Cfg) (g : LinearGen F) (n : Nat) (ax : Axis) :
    netSteps c ax ((Gen.linear g).run c n .init).1 =
      g.dir.get ax * steps ax ((Gen.linear g).run c n .init).1 := by
  cases n with
  | zero => simp [netSteps, netFrom, Gen.run, steps, stepTimes]
  | succ n =>
    rcases linear_run_shape c g n with ⟨e, h⟩ | ⟨r, h, hp, _⟩ <;> rw [h]
    · simp [netSteps, netFrom, steps, stepTimes]
    · rw [steps_cons]
      unfold netSteps
      rw [netFrom, netFrom_pulses _ _ _ _ hp, get_invertDirs]
      have : steps ax [(Event.dir (invertDirs c g.dir) : Event F)] = 0 := rfl
      rw [this, Nat.zero_add]
      split
      · rw [neg_neg]
      · rfl

end Any

section Ord

variable {F : Type} [PyNum F] [PyOrd F]

theorem lt_irrefl_ord (a : F) : (a <ₚ a) = false := by
  rw [← Bool.not_eq_true, PyOrd.lt_val]; exact lt_irrefl _

theorem minFold (l : List (Option F)) (m0 : Option F) (m : F)
    (h : l.foldl (fun m i =>
      match i, m with
      | none, _ => m
      | some i, none => some i
      | some i, some m => if i <ₚ m then some i else some m) m0 = some m) :
    (m0 = some m ∨ some m ∈ l) ∧ (∀ a, m0 = some a → PyOrd.val m ≤ PyOrd.val a) ∧
      ∀ τ, some τ ∈ l → PyOrd.val m ≤ PyOrd.val τ := by
  induction l generalizing m0 with
  | nil =>
    simp only [List.foldl] at h
    subst h
    exact ⟨.inl rfl, fun a ha => by cases ha; exact le_refl _, fun τ h => by cases h⟩
  | cons i l ih =>
    rw [List.foldl] at h
    obtain ⟨h1, h2, h3⟩ := ih _ h
    rcases i with _ | i
    · refine ⟨h1.imp id (List.mem_cons_of_mem _), h2, fun τ hm => h3 τ ?_⟩
      rcases List.mem_cons.1 hm with hm | hm
      · cases hm
      · exact hm
    · rcases m0 with _ | a
      · simp only at h1 h2
        refine ⟨.inr ?_, fun a ha => (nomatch ha), fun τ hm => ?_⟩
        · rcases h1 with h1 | h1
          · rw [h1]; exact List.mem_cons_self
          · exact List.mem_cons_of_mem _ h1
        · rcases List.mem_cons.1 hm with hm | hm
          · cases hm; exact h2 _ rfl
          · exact h3 τ hm
      · simp only at h1 h2
        by_cases hc : (i <ₚ a) = true
        · rw [if_pos hc] at h1 h2
          have := (PyOrd.lt_val i a).1 hc
          have h4 := h2 _ rfl
          refine ⟨.inr ?_, fun b hb => by cases hb; linarith, fun τ hm => ?_⟩
          · rcases h1 with h1 | h1
            · rw [h1]; exact List.mem_cons_self
            · exact List.mem_cons_of_mem _ h1
          · rcases List.mem_cons.1 hm with hm | hm
            · cases hm; exact h4
            · exact h3 τ hm
        · rw [if_neg hc] at h1 h2
          rw [PyOrd.lt_val, not_lt] at hc
          have h4 := h2 _ rfl
          refine ⟨h1.imp id (List.mem_cons_of_mem _), fun b hb => by cases hb; exact h4,
            fun τ hm => ?_⟩
          rcases List.mem_cons.1 hm with hm | hm
          · cases hm; linarith
          · exact h3 τ hm

/-- The minimum is one of the times, and no time is smaller. -/
theorem minTime_some {t : V4 (Option F)} {m : F} (h : minTime t = some m) :
    (∃ ax, t.get ax = some m) ∧ ∀ ax τ, t.get ax = some τ → PyOrd.val m ≤ PyOrd.val τ := by
  obtain ⟨h1, _, h3⟩ := minFold _ _ _ h
  constructor
  · rcases h1 with h1 | h1
    · cases h1
    · simp only [List.mem_cons, List.not_mem_nil, or_false] at h1
      rcases h1 with h1 | h1 | h1 | h1
      · exact ⟨.x, h1.symm⟩
      · exact ⟨.y, h1.symm⟩
      · exact ⟨.z, h1.symm⟩
      · exact ⟨.e, h1.symm⟩
  · intro ax τ ht
    refine h3 τ ?_
    rw [← ht]
    cases ax <;> simp [V4.get]

/-- Every pulse event of any generator steps at least one motor, all at one time. -/
theorem next_stepsAt {c : Cfg} {g : Gen F} {s s' : GenState} {t' : V4 (Option F)}
    (h : g.next c s = .ok (some (.pulse t', s'))) :
    ∃ τ, StepsAt τ (.pulse t') := by
  rcases next_cases c g s with ⟨e, _, h2⟩ | ⟨d, t, hi, h2⟩
  · rw [h] at h2; cases h2
  rcases h2 with ⟨_, h2⟩ | ⟨_, _, h2⟩ | ⟨m, _, hm, ⟨e, _, h2⟩ | ⟨am, _, h2⟩⟩ <;> rw [h] at h2 <;>
    cases h2
  refine ⟨am, ?_, fun ax τ' hτ => ?_⟩
  · obtain ⟨⟨ax, hax⟩, _⟩ := minTime_some hm
    refine ⟨ax, ?_⟩
    simp [fired, get_ofFn, fireAxis, hax, lt_irrefl_ord]
  · simp only [fired, get_ofFn] at hτ
    rcases fireAxis_cases (t.get ax) m am (s.it.get ax) with h | ⟨_, _, _, h⟩ <;> rw [h] at hτ <;>
      cases hτ
    rfl

/-- Sum of the pulses still to send. -/
def LinearGen.left (g : LinearGen F) (s : GenState) : Nat :=
  ((g.total.x).toNat - s.it.x) + ((g.total.y).toNat - s.it.y) + ((g.total.z).toNat - s.it.z) +
    ((g.total.e).toNat - s.it.e)

theorem left_lt {g : LinearGen F} {s s' : GenState}
    (h1 : ∀ ax, s.it.get ax ≤ s'.it.get ax)
    (h2 : ∃ ax, s.it.get ax < s'.it.get ax ∧ s'.it.get ax ≤ (g.total.get ax).toNat) :
    g.left s' < g.left s := by
  have hx := h1 .x; have hy := h1 .y; have hz := h1 .z; have he := h1 .e
  obtain ⟨ax, h2, h3⟩ := h2
  unfold LinearGen.left
  have sx := Nat.sub_le_sub_left hx g.total.x.toNat
  have sy := Nat.sub_le_sub_left hy g.total.y.toNat
  have sz := Nat.sub_le_sub_left hz g.total.z.toNat
  have se := Nat.sub_le_sub_left he g.total.e.toNat
  have := Nat.sub_lt_sub_left (h2.trans_le h3) h2
  cases ax <;> simp only [V4.get] at this sx sy sz se
  · exact Nat.add_lt_add_of_lt_of_le (Nat.add_lt_add_of_lt_of_le
      (Nat.add_lt_add_of_lt_of_le this sy) sz) se
  · exact Nat.add_lt_add_of_lt_of_le (Nat.add_lt_add_of_lt_of_le
      (Nat.add_lt_add_of_le_of_lt sx this) sz) se
  · exact Nat.add_lt_add_of_lt_of_le (Nat.add_lt_add_of_le_of_lt
      (Nat.add_le_add sx sy) this) se
  · exact Nat.add_lt_add_of_le_of_lt (Nat.add_le_add
      (Nat.add_le_add sx sy) sz) this

/-- A linear generator ends (with `StopIteration` or an exception) after at most one call per
pulse, plus two. -/
theorem linear_run_ends (c : Cfg) (g : LinearGen F) (n : Nat) (s : GenState)
    (hs : ∀ ax, s.it.get ax ≤ (g.total.get ax).toNat)
    (hn : g.left s + (if s.dir = some g.dir then 0 else 1) < n) :
    ((Gen.linear g).run c n s).2 ≠ .unfinished := by
  induction n generalizing s with
  | zero => omega
  | succ n ih =>
    rcases run_succ c (.linear g) n s with ⟨e, _, h⟩ | ⟨h1, h⟩ | ⟨ev, s', h1, h⟩ <;> rw [h]
    · simp
    · simp
    · obtain ⟨h2, h3, h4⟩ := linear_next_dir h1
      refine ih s' (fun ax => (linear_next_it h1 ax).2 (hs ax)) ?_
      rw [if_pos h2]
      by_cases hd : s.dir = some g.dir
      · rw [if_pos hd] at hn
        obtain ⟨t, rfl⟩ := h3 hd
        obtain ⟨τ, ⟨ax, hax⟩, _⟩ := next_stepsAt h1
        have : g.left s' < g.left s := by
          refine left_lt (fun ax => by rw [(linear_next_it h1 ax).1]; omega) ⟨ax, ?_, ?_⟩
          · rw [(linear_next_it h1 ax).1]
            have : steps ax [Event.pulse t] = 1 := by simp [steps, stepTimes, hax]
            omega
          · exact (linear_next_it h1 ax).2 (hs ax)
        omega
      · rw [if_neg hd] at hn
        obtain ⟨_, h5⟩ := h4 hd
        have : g.left s' = g.left s := by unfold LinearGen.left; rw [h5]
        omega

end Ord

end PyCNC
