import Verif.Lemmas.ArcRun

/-!
# Iterating a generator whose pulses follow a timetable

The uniform times of the pulses of every axis depend on the number of pulses sent to that axis
alone, and never decrease.
-/

set_option linter.unusedSectionVars false

namespace PyCNC

open Spec

variable [PyRound]

/-- The pulses follow a timetable. -/
structure Timed (c : Cfg) (g : Gen ℝ) (total : Axis → ℕ) (pt : Axis → ℕ → ℝ) : Prop where
  plan : ∀ it d t, g.interp c it = .ok (d, t) → ∀ ax,
    t.get ax = if it.get ax < total ax then some (pt ax (it.get ax)) else none
  mono : ∀ ax i j, i ≤ j → j < total ax → pt ax i ≤ pt ax j
  nonneg : ∀ ax i, i < total ax → 0 ≤ pt ax i
  k : 0 ≤ g.twoVmaxPerA c
  acc : 0 ≤ g.accT
  lin : 0 ≤ g.linT

/-- The time a pulse is sent. -/
noncomputable def Gen.sendTime (c : Cfg) (g : Gen ℝ) (p : ℝ) : ℝ :=
  warp (g.twoVmaxPerA c) g.accT g.linT p

/-- No pulse was sent too early: those sent are not later than those to be sent. -/
def InOrder (total : Axis → ℕ) (pt : Axis → ℕ → ℝ) (it : Axis → ℕ) : Prop :=
  ∀ ax ax' i j, i < it ax → it ax' ≤ j → j < total ax' → pt ax i ≤ pt ax' j

section

variable {c : Cfg} {g : Gen ℝ} {total : Axis → ℕ} {pt : Axis → ℕ → ℝ}

theorem Timed.send_mono (h : Timed c g total pt) {p q : ℝ} (hp : 0 ≤ p) (hpq : p ≤ q) :
    g.sendTime c p ≤ g.sendTime c q := warp_mono h.k h.acc h.lin hp hpq

/-- One call of `next`. -/
theorem timed_next (h : Timed c g total pt) {s s' : GenState} {ev : Event ℝ}
    (hn : g.next c s = .ok (some (ev, s'))) :
    (IsDir ev ∧ s'.it = s.it) ∨
    ∃ m t, ev = .pulse t ∧ 0 ≤ m ∧ (∃ ax, s.it.get ax < total ax ∧ pt ax (s.it.get ax) = m) ∧
      (∀ ax, s.it.get ax < total ax → m ≤ pt ax (s.it.get ax)) ∧
      ∀ ax, (s.it.get ax < total ax ∧ pt ax (s.it.get ax) = m ∧
          t.get ax = some (g.sendTime c m) ∧ s'.it.get ax = s.it.get ax + 1) ∨
        (t.get ax = none ∧ s'.it.get ax = s.it.get ax) := by
  rcases next_cases c g s with ⟨e, _, h2⟩ | ⟨d, t, hi, h2⟩
  · rw [hn] at h2; cases h2
  have hpl := h.plan _ _ _ hi
  rcases h2 with ⟨_, h2⟩ | ⟨_, _, h2⟩ | ⟨m, _, hm, ⟨e, _, h2⟩ | ⟨am, ha, h2⟩⟩ <;> rw [hn] at h2 <;>
    cases h2
  · exact .inl ⟨trivial, rfl⟩
  · obtain ⟨⟨ax0, h0⟩, hmin⟩ := minTime_some hm
    have hlt : s.it.get ax0 < total ax0 ∧ pt ax0 (s.it.get ax0) = m := by
      rw [hpl ax0] at h0
      split at h0
      · next h' => cases h0; exact ⟨h', rfl⟩
      · cases h0
    have hm0 : 0 ≤ m := by rw [← hlt.2]; exact h.nonneg _ _ hlt.1
    rw [toAccelerated_warp h.k h.acc hm0] at ha
    cases ha
    have hle : ∀ ax, s.it.get ax < total ax → m ≤ pt ax (s.it.get ax) := fun ax hax =>
      hmin ax _ (by rw [hpl ax, if_pos hax])
    refine .inr ⟨m, _, rfl, hm0, ⟨ax0, hlt⟩, hle, fun ax => ?_⟩
    simp only [fired, advanced, get_ofFn]
    rcases fireAxis_cases (t.get ax) m (warp (g.twoVmaxPerA c) g.accT g.linT m) (s.it.get ax)
      with hf | ⟨τ, ht, hτ, hf⟩ <;> rw [hf]
    · exact .inr ⟨rfl, rfl⟩
    · rw [hpl ax] at ht
      split at ht
      · next h' =>
        cases ht
        refine .inl ⟨h', le_antisymm ?_ (hle ax h'), rfl, rfl⟩
        simpa using hτ
      · cases ht

/-- What a run sends, and in which order. -/
theorem timed_run (h : Timed c g total pt) (n : ℕ) (s : GenState)
    (hs : InOrder total pt fun ax => s.it.get ax) :
    (∀ ax, stepTimes ax (g.run c n s).1 = (List.range (steps ax (g.run c n s).1)).map fun i =>
      g.sendTime c (pt ax (s.it.get ax + i))) ∧
    InOrder total pt (fun ax => s.it.get ax + steps ax (g.run c n s).1) ∧
    (∀ p, 0 ≤ p → (∀ ax i, s.it.get ax ≤ i → i < total ax → p ≤ pt ax i) →
      ∀ ev ∈ (g.run c n s).1, ∀ τ, StepsAt τ ev → g.sendTime c p ≤ τ) ∧
    ((g.run c n s).1.Pairwise fun e₁ e₂ => ∀ τ₁ τ₂, StepsAt τ₁ e₁ → StepsAt τ₂ e₂ → τ₁ ≤ τ₂) := by
  induction n generalizing s with
  | zero =>
    refine ⟨fun ax => rfl, by simpa [Gen.run, steps, stepTimes] using hs, ?_, List.Pairwise.nil⟩
    intro p _ _ ev hev; cases hev
  | succ n ih =>
    have hnil : steps (F := ℝ) = fun ax l => (stepTimes ax l).length := rfl
    rcases run_succ c g n s with ⟨e, _, h2⟩ | ⟨_, h2⟩ | ⟨ev, s', h1, h2⟩ <;> rw [h2]
    · refine ⟨fun ax => rfl, by simpa [steps, stepTimes] using hs, ?_, List.Pairwise.nil⟩
      intro p _ _ ev hev; cases hev
    · refine ⟨fun ax => rfl, by simpa [steps, stepTimes] using hs, ?_, List.Pairwise.nil⟩
      intro p _ _ ev hev; cases hev
    rcases timed_next h h1 with ⟨hd, hit⟩ | ⟨m, t, rfl, hm0, ⟨ax0, hax0, hpt0⟩, hle, hax⟩
    · obtain ⟨i1, i2, i3, i4⟩ := ih s' (by rw [hit]; exact hs)
      rw [hit] at i1 i2 i3
      rcases ev with d | t
      · refine ⟨fun ax => i1 ax, i2, ?_, List.Pairwise.cons (fun e' _ τ₁ τ₂ h1 => h1.elim) i4⟩
        intro p hp hall ev hev τ hτ
        rcases List.mem_cons.1 hev with rfl | hev
        · exact hτ.elim
        · exact i3 p hp hall ev hev τ hτ
      · exact hd.elim
    · -- a pulse
      have hord : InOrder total pt fun ax => s'.it.get ax := by
        intro ax ax' i j hi hj hj'
        have hj2 : s.it.get ax' ≤ j := by
          rcases hax ax' with ⟨_, _, _, h4⟩ | ⟨_, h4⟩ <;> simp only at hj <;> omega
        have hmj : m ≤ pt ax' j := (hle ax' (by omega)).trans (h.mono ax' _ _ hj2 hj')
        rcases hax ax with ⟨_, h3, _, h4⟩ | ⟨_, h4⟩
        · simp only [h4] at hi
          rcases Nat.lt_or_eq_of_le (Nat.lt_succ_iff.1 hi) with hi | hi
          · exact hs ax ax' i j hi hj2 hj'
          · rw [hi, h3]; exact hmj
        · simp only [h4] at hi
          exact hs ax ax' i j hi hj2 hj'
      obtain ⟨i1, i2, i3, i4⟩ := ih s' hord
      have hst : ∀ ax, (steps ax [Event.pulse t] = 1 ∧ s'.it.get ax = s.it.get ax + 1 ∧
          stepTimes ax [Event.pulse t] = [g.sendTime c (pt ax (s.it.get ax))]) ∨
          (steps ax [Event.pulse t] = 0 ∧ s'.it.get ax = s.it.get ax ∧
          stepTimes ax [Event.pulse t] = []) := by
        intro ax
        rcases hax ax with ⟨_, h3, h4, h5⟩ | ⟨h4, h5⟩
        · exact .inl ⟨by simp [steps, stepTimes, h4], h5, by simp [stepTimes, h4, h3]⟩
        · exact .inr ⟨by simp [steps, stepTimes, h4], h5, by simp [stepTimes, h4]⟩
      have hlow : ∀ p, 0 ≤ p → (∀ ax i, s.it.get ax ≤ i → i < total ax → p ≤ pt ax i) →
          ∀ τ, StepsAt τ (Event.pulse t) → g.sendTime c p ≤ τ := by
        intro p hp hall τ hτ
        obtain ⟨⟨ax, h5⟩, _⟩ := hτ
        rcases hax ax with ⟨h6, h3, h4, _⟩ | ⟨h4, _⟩ <;> rw [h5] at h4 <;> cases h4
        refine h.send_mono hp ?_
        rw [← h3]; exact hall ax _ le_rfl h6
      have hnext : ∀ p, (∀ ax i, s.it.get ax ≤ i → i < total ax → p ≤ pt ax i) →
          (∀ ax i, s'.it.get ax ≤ i → i < total ax → p ≤ pt ax i) := by
        intro p hall ax i hi hi'
        refine hall ax i ?_ hi'
        rcases hst ax with ⟨_, h4, _⟩ | ⟨_, h4, _⟩ <;> omega
      refine ⟨fun ax => ?_, ?_, ?_, List.Pairwise.cons ?_ i4⟩
      · rw [stepTimes_cons, steps_cons, i1 ax]
        rcases hst ax with ⟨h3, h4, h5⟩ | ⟨h3, h4, h5⟩ <;> rw [h3, h5, h4]
        · rw [Nat.add_comm 1, List.range_succ_eq_map, List.map_cons, List.map_map]
          change _ :: _ = _ :: _
          congr 1
          refine List.map_congr_left fun i _ => ?_
          simp only [Function.comp]
          rw [show s.it.get ax + 1 + i = s.it.get ax + (i + 1) by omega]
        · simp
      · intro ax ax' i j hi hj hj'
        have e : ∀ ax, s.it.get ax + steps ax (Event.pulse t :: (g.run c n s').1) =
            s'.it.get ax + steps ax (g.run c n s').1 := by
          intro ax
          rw [steps_cons]
          rcases hst ax with ⟨h3, h4, _⟩ | ⟨h3, h4, _⟩ <;> omega
        simp only [e] at hi hj
        exact i2 ax ax' i j hi hj hj'
      · intro p hp hall ev hev τ hτ
        rcases List.mem_cons.1 hev with rfl | hev
        · exact hlow p hp hall τ hτ
        · exact i3 p hp (hnext p hall) ev hev τ hτ
      · intro e' he' τ₁ τ₂ h3 h4
        have h5 : τ₁ = g.sendTime c m := by
          obtain ⟨⟨ax, h5⟩, _⟩ := h3
          rcases hax ax with ⟨_, _, h4, _⟩ | ⟨h4, _⟩ <;> rw [h5] at h4 <;> cases h4
          rfl
        rw [h5]
        refine i3 m hm0 (fun ax i hi hi' => ?_) e' he' τ₂ h4
        have hi2 : s.it.get ax ≤ i := by
          rcases hst ax with ⟨_, h4, _⟩ | ⟨_, h4, _⟩ <;> omega
        exact (hle ax (by omega)).trans (h.mono ax _ _ hi2 hi')

/-- From the start. -/
theorem timed_init (h : Timed c g total pt) (n : ℕ) :
    (∀ ax, stepTimes ax (g.run c n .init).1 =
      (List.range (steps ax (g.run c n .init).1)).map fun i => g.sendTime c (pt ax i)) ∧
    InOrder total pt (fun ax => steps ax (g.run c n .init).1) ∧
    ((g.run c n .init).1.Pairwise fun e₁ e₂ =>
      ∀ τ₁ τ₂, StepsAt τ₁ e₁ → StepsAt τ₂ e₂ → τ₁ ≤ τ₂) := by
  have hz : ∀ ax, GenState.init.it.get ax = 0 := fun ax => by cases ax <;> rfl
  obtain ⟨h1, h2, _, h4⟩ := timed_run h n .init (fun ax ax' i j hi => by
    simp only [hz] at hi; omega)
  simp only [hz, Nat.zero_add] at h1 h2
  exact ⟨h1, h2, h4⟩

end

end PyCNC
