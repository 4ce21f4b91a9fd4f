import Verif.Lemmas.HeadHistory

/-!
# The arcs of a history, from what the generators know
-/

namespace PyCNC

open Spec

variable [PyRound] {c : Cfg} {env : Env ℝ}

/-- What is known of every circular move of a history. -/
def FromSteps (c : Cfg) (g : CircGen ℝ) : Prop :=
  ∃ d r : V4 ℝ, ∃ rot v, g.delta = roundToSteps c d ∧
    CircGen.new c g.delta (roundToSteps c r) g.plane rot v = .ok g

theorem arcs_fromSteps (henv : ∀ tr, env.move tr = none) {s : MState ℝ} (hs : Reachable c env s) :
    ∀ g, HalCall.move (.circular g) ∈ s.trace → FromSteps c g := by
  have key : ∀ g, Gen.circular g ∈ movesOf s.trace → FromSteps c g := by
    refine reachable_moves (P := fun s => ∀ g, Gen.circular g ∈ movesOf s.trace → FromSteps c g)
      ?_ ?_ ?_ ?_ hs
    · intro g hg
      change _ ∈ ([] : List (Gen ℝ)) at hg
      cases hg
    · intro d v s ih
      rcases moveLinear_cases (c := c) (env := env) d v s with ⟨hz, h'⟩ | ⟨_, e, h', _⟩ |
        ⟨_, g, _, hnew, _, ⟨e, he, h'⟩ | ⟨_, h'⟩⟩
      · rw [h']; exact ih
      · rw [h']; exact ih
      · rw [henv] at he; cases he
      · rw [h']
        intro g' hg'
        rcases List.mem_cons.1 hg' with h | h
        · cases h
        · exact ih g' h
    · intro d r v rot s ih
      rcases moveCircular_moves henv d r v rot s with h | ⟨ce, g, lg, _, _, hnew, _, _, htr⟩
      · rw [h]; exact ih
      · intro g' hg'
        have hnf : g.delta = roundToSteps c ce ∧ g.plane = s.plane := by
          obtain ⟨_, _, hf⟩ := new_facts hnew
          exact ⟨hf.delta_eq, hf.plane_eq⟩
        have hg : FromSteps c g := ⟨ce, r, rot, v, hnf.1, by rw [hnf.1, hnf.2]; exact hnew⟩
        rw [htr] at hg'
        cases lg with
        | none =>
          rcases List.mem_cons.1 hg' with h | h
          · cases h; exact hg
          · exact ih g' h
        | some l =>
          rcases List.mem_cons.1 hg' with h | h
          · cases h
          rcases List.mem_cons.1 h with h | h
          · cases h; exact hg
          · exact ih g' h
    · intro s s' ih _ hm g hg
      rw [hm] at hg
      exact ih g hg
  exact fun g hg => key g (mem_movesOf.2 hg)

omit [PyRound] in
theorem always_mono {Q Q' : HalCall ℝ → List (HalCall ℝ) → Prop} (h : ∀ call tr, Q call tr → Q' call tr)
    {tr : List (HalCall ℝ)} (ha : Always Q tr) : Always Q' tr := by
  induction tr with
  | nil => trivial
  | cons call tr ih => exact ⟨h _ _ ha.1, ih ha.2⟩

omit [PyRound] in
theorem always_of_mem {Q : HalCall ℝ → Prop} {tr : List (HalCall ℝ)} (h : ∀ call ∈ tr, Q call) :
    Always (fun call _ => Q call) tr := by
  induction tr with
  | nil => trivial
  | cons call tr ih =>
    exact ⟨h call (List.mem_cons_self ..), ih fun x hx => h x (List.mem_cons_of_mem _ hx)⟩

theorem rts_onSteps {ax : Axis} (h : DecimalStep c ax) (d : V4 ℝ) : OnSteps c (roundToSteps c d) ax :=
  ⟨_, rts_steps h d⟩

omit [PyRound] in
theorem arcQuarter_scale {a b k : ℝ} (hk : 0 < k) : arcQuarter (a * k) (b * k) = arcQuarter a b := by
  unfold arcQuarter
  have h1 : ∀ x : ℝ, 0 ≤ x * k ↔ 0 ≤ x := fun x => mul_nonneg_iff_of_pos_right hk
  have h2 : ∀ x : ℝ, 0 < x * k ↔ 0 < x := fun x => mul_pos_iff_of_pos_right hk
  have h3 : ∀ x : ℝ, x * k ≤ 0 ↔ x ≤ 0 := fun x => by rw [← not_lt, h2, not_lt]
  have h4 : ∀ x : ℝ, x * k < 0 ↔ x < 0 := fun x => by rw [← not_le, h1, not_le]
  simp only [h1, h2, h3, h4]

/-- An arc in a plane whose axes have the same decimal step. -/
theorem arcOf_plane {g : CircGen ℝ} (hf : FromSteps c g) (hA : DecimalStep c (axisA g.plane))
    (hB : DecimalStep c (axisB g.plane)) (hp : 0 < c.ppm.get (axisA g.plane))
    (heq : c.ppm.get (axisA g.plane) = c.ppm.get (axisB g.plane)) (hb : ¬ EndsBefore c g) :
    ∃ radius plane, ArcOf c g radius plane := by
  obtain ⟨d, r, rot, v, hd, hg⟩ := hf
  have hP : (0 : ℝ) < c.ppm.get (axisA g.plane) := by exact_mod_cast hp
  have hgrid : GridArc c g.delta (roundToSteps c r) g.plane :=
    ⟨hp, heq ▸ hp, rts_onSteps hA _, rts_onSteps hB _, hd ▸ rts_onSteps hA _, hd ▸ rts_onSteps hB _,
      .inl heq⟩
  refine ⟨_, _, rot, v, hg, hgrid, fun hback => hb ?_⟩
  obtain ⟨-, R, RB, A, B, EA, EB, hi, -, -, r3, r4, -⟩ := arc_gen hgrid hg
  have heq' : (c.ppm.get (axisB g.plane) : ℝ) = c.ppm.get (axisA g.plane) := by rw [heq]
  obtain ⟨h1, h2⟩ := hback
  have e1 : (g.startAP : ℝ) = startA g.plane (roundToSteps c r) * c.ppm.get (axisA g.plane) := by
    rw [r3, hi.hA]
  have e2 : (g.startBP : ℝ) = startB g.plane (roundToSteps c r) * c.ppm.get (axisA g.plane) := by
    rw [r4, ← hi.hB, heq']
  have e3 : g.startAP + g.delta.get (axisA g.plane) * c.ppm.get (axisA g.plane) =
      endA g.plane g.delta (roundToSteps c r) * c.ppm.get (axisA g.plane) := by
    rw [e1]; unfold startA endA; ring
  have e4 : g.startBP + g.delta.get (axisB g.plane) * c.ppm.get (axisB g.plane) =
      endB g.plane g.delta (roundToSteps c r) * c.ppm.get (axisA g.plane) := by
    rw [e2, heq']; unfold startB endB; ring
  unfold EndsBefore
  rw [e3, e4, e1, e2, arcQuarter_scale hP, arcQuarter_scale hP]
  refine ⟨h1, ?_⟩
  have := mul_lt_mul_of_pos_right h2 (mul_pos hP hP)
  nlinarith [this]

end PyCNC
