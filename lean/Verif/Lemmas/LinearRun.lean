import Verif.Lemmas.LinearFacts

/-!
# Whole runs of linear generators in exact arithmetic
-/

set_option linter.unusedSectionVars false

namespace PyCNC

open Spec

section Any

variable {F : Type} [PyNum F]

/-- A finished run does not change with more calls. -/
theorem run_done_mono (c : Cfg) (g : Gen F) (n : Nat) (s : GenState)
    (h : (g.run c n s).2 = .done) (m : Nat) (hm : n ≤ m) : g.run c m s = g.run c n s := by
  induction n generalizing s m with
  | zero => cases h
  | succ n ih =>
    obtain ⟨m, rfl⟩ : ∃ m', m = m' + 1 := ⟨m - 1, by omega⟩
    rcases run_succ c g n s with ⟨e, h1, h2⟩ | ⟨h1, h2⟩ | ⟨ev, s', h1, h2⟩
    · rw [h2] at h; cases h
    · rw [h2]; simp [Gen.run, h1]
    · rw [h2] at h ⊢
      have := ih s' h m (by omega)
      simp [Gen.run, h1, this]

/-- Fewer calls give a prefix of the events. -/
theorem run_take (c : Cfg) (g : Gen F) (n : Nat) (s : GenState) (m : Nat) (hm : m ≤ n) :
    (g.run c m s).1 = (g.run c n s).1.take m := by
  induction n generalizing s m with
  | zero => obtain rfl : m = 0 := by omega
            rfl
  | succ n ih =>
    cases m with
    | zero => simp [Gen.run]
    | succ m =>
      rcases run_succ c g n s with ⟨e, h1, h2⟩ | ⟨h1, h2⟩ | ⟨ev, s', h1, h2⟩
      · rw [h2]; simp [Gen.run, h1]
      · rw [h2]; simp [Gen.run, h1]
      · rw [h2]; simp [Gen.run, h1, ih s' m (by omega)]

/-- Number of pulses and direction computed by the constructor. -/
theorem linear_new_total {c : Cfg} {delta : V4 F} {v : F} {g : LinearGen F}
    (h : LinearGen.new c delta v = .ok g) (ax : Axis) :
    g.total.get ax = PyNum.roundI ((Coord.abs delta).get ax *ₚ PyNum.ofRat (c.ppm.get ax)) ∧
      g.dir.get ax = sign1 (delta.get ax) := by
  unfold LinearGen.new at h
  simp only at h
  rcases h1 : pdiv (v /ₚ secInMin) (Coord.length (Coord.abs delta)) with e | p <;> rw [h1] at h
  · cases h
  rcases h2 : adjustVelocity c (Coord.smul (Coord.abs delta) p) with e | w
  · simp only [bind, Except.bind, h2] at h; cases h
  simp only [bind, Except.bind, h2] at h
  split at h
  · split at h
    · cases h
    · cases h
      cases ax <;> exact ⟨rfl, rfl⟩
  · split at h
    · cases h
    · cases h
      cases ax <;> exact ⟨rfl, rfl⟩

/-- Every event that is not an announcement of directions steps its motors at one time. -/
theorem run_stepsAt [PyOrd F] (c : Cfg) (g : Gen F) (n : Nat) (s : GenState) :
    ∀ ev ∈ (g.run c n s).1, ¬ IsDir ev → ∃ τ, StepsAt τ ev := by
  induction n generalizing s with
  | zero => intro ev hev; cases hev
  | succ n ih =>
    rcases run_succ c g n s with ⟨e, h1, h2⟩ | ⟨h1, h2⟩ | ⟨ev, s', h1, h2⟩ <;> rw [h2]
    · intro ev hev; cases hev
    · intro ev hev; cases hev
    · intro ev' hev
      rcases List.mem_cons.1 hev with rfl | hev
      · intro hd
        rcases ev' with d | t
        · exact absurd trivial hd
        · exact next_stepsAt h1
      · exact ih s' ev' hev

end Any

variable [PyRound] {c : Cfg} {delta : V4 ℝ} {v : ℝ} {g : LinearGen ℝ}

/-- What a good generator emits. -/
theorem good_emits (h : g.Good c) :
    ∃ r, Emits c (.linear g) (.dir (invertDirs c g.dir) :: r) ∧
      (∀ n, (∃ N, r.take n = ((Gen.linear g).run c N ⟨⟨0, 0, 0, 0⟩, some g.dir⟩).1)) ∧
      (∀ ev ∈ r, ∃ t, ev = .pulse t) ∧
      (∀ ax, steps ax r = (g.total.get ax).toNat) ∧
      (∀ ax, stepTimes ax r = (List.range (g.total.get ax).toNat).map fun i =>
        g.at c (g.pt c ax i)) ∧
      (r.Pairwise fun e₁ e₂ => ∀ τ₁ τ₂, StepsAt τ₁ e₁ → StepsAt τ₂ e₂ → τ₁ ≤ τ₂) := by
  obtain ⟨n, hn⟩ : ∃ n, n = g.left ⟨⟨0, 0, 0, 0⟩, some g.dir⟩ + 1 := ⟨_, rfl⟩
  set s0 : GenState := ⟨⟨0, 0, 0, 0⟩, some g.dir⟩ with hs0
  have h0 : ∀ ax, s0.it.get ax = 0 := fun ax => by cases ax <;> rfl
  have h1 : ((Gen.linear g).run c n s0).2 = .done := by
    have := linear_run_ends c g n s0 (fun ax => by rw [h0]; omega) (by rw [if_pos rfl]; omega)
    rcases hr : ((Gen.linear g).run c n s0).2 with _ | e | _
    · rfl
    · exact absurd hr (good_run_ends h n _ e)
    · exact absurd hr this
  have hst : ∀ ax, steps ax ((Gen.linear g).run c n s0).1 = (g.total.get ax).toNat := fun ax => by
    have := (linear_run_steps c g n s0 ax (by rw [h0]; omega)).2 h1
    rw [h0] at this
    omega
  have hfirst : (Gen.linear g).next c .init = .ok (some (.dir (invertDirs c g.dir), s0)) := by
    rcases next_cases c (.linear g) .init with ⟨e, h2, _⟩ | ⟨d, t, h2, h3⟩
    · rw [linear_interp_times h] at h2; cases h2
    · rw [linear_interp_times h] at h2
      cases h2
      rcases h3 with ⟨_, h3⟩ | ⟨h4, _⟩ | ⟨_, h4, _⟩
      · exact h3
      · cases h4
      · cases h4
  have hrun : ∀ m, (Gen.linear g).run c (m + 1) .init =
      (.dir (invertDirs c g.dir) :: ((Gen.linear g).run c m s0).1, ((Gen.linear g).run c m s0).2) := by
    intro m
    simp [Gen.run, hfirst]
  refine ⟨((Gen.linear g).run c n s0).1, ⟨n + 1, fun m hm => ?_⟩, fun m => ?_,
    linear_run_pulses c g n s0 rfl, hst, fun ax => ?_, good_run_sorted h n _⟩
  · obtain ⟨m, rfl⟩ : ∃ m', m = m' + 1 := ⟨m - 1, by omega⟩
    rw [hrun, run_done_mono c _ n s0 h1 m (by omega), h1]
  · rcases le_total m n with hm | hm
    · exact ⟨m, (run_take c _ n s0 m hm).symm⟩
    · refine ⟨m, ?_⟩
      rw [run_done_mono c _ n s0 h1 m hm]
      refine List.take_of_length_le ?_
      rw [run_take c _ n s0 n le_rfl]
      exact (List.length_take_le _ _).trans hm
  · rw [good_run_times h n _ ax, hst, h0, List.range_eq_range']

omit [PyRound] in
theorem emits_unique {F : Type} [PyNum F] {g : Gen F} {e₁ e₂ : List (Event F)} (h1 : Emits c g e₁) (h2 : Emits c g e₂) :
    e₁ = e₂ := by
  obtain ⟨n, hn⟩ := h1
  obtain ⟨m, hm⟩ := h2
  have a := hn (max n m) (le_max_left _ _)
  have b := hm (max n m) (le_max_right _ _)
  rw [a] at b
  exact (Prod.mk.inj b).1

end PyCNC
