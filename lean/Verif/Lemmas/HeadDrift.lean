import Verif.Lemmas.HeadHistory

/-!
# How far the position drifts from the motors when a step is not a decimal number
-/

namespace PyCNC

open Spec

variable [PyRound] {c : Cfg} {env : Env ℝ}

omit [PyRound] in
theorem moveCount_eq {F : Type} (tr : List (HalCall F)) : moveCount tr = (movesOf tr).length := by
  induction tr with
  | nil => rfl
  | cons call tr ih =>
    cases call <;> simp [moveCount, movesOf, ih]

/-- A rounded displacement is next to a whole number of steps. -/
theorem rts_near {ax : Axis} (hp : 0 < c.ppm.get ax) (d : V4 ℝ) :
    |(roundToSteps c d).get ax * c.ppm.get ax - (PyRound.rnd (d.get ax * c.ppm.get ax) : ℤ)| ≤
      c.ppm.get ax / (2 * 10 ^ 10) := by
  have hP : (0 : ℝ) < c.ppm.get ax := by exact_mod_cast hp
  rw [get_roundToSteps, div_div_eq_mul_div, div_one, mul_one_div]
  have h1 := round10_near ((PyRound.rnd (d.get ax * (c.ppm.get ax : ℝ)) : ℝ) / (c.ppm.get ax : ℝ))
  generalize (PyRound.rnd (d.get ax * (c.ppm.get ax : ℝ)) : ℝ) = n at *
  generalize (c.ppm.get ax : ℝ) = P at *
  generalize PyNum.round10 (n / P) = y at *
  have h2 : y * P - n = (y - n / P) * P := by field_simp
  rw [h2, abs_mul, abs_of_pos hP]
  have h3 : |y - n / P| ≤ 1 / (2 * 10 ^ 10) := by
    refine h1.trans (le_of_eq ?_)
    norm_num [E10]
  calc |y - n / P| * P ≤ 1 / (2 * 10 ^ 10) * P := by gcongr
    _ = _ := by ring

/-- The position is next to where the motors are. -/
def DriftInv (c : Cfg) (ax : Axis) (s : MState ℝ) : Prop :=
  GridV s.pos ∧ ((∀ g, Gen.circular g ∉ movesOf s.trace) →
    ∀ evs, SendsG c (movesOf s.trace) evs →
      |s.pos.get ax * c.ppm.get ax - netSteps c ax evs| ≤
        (movesOf s.trace).length * (c.ppm.get ax / (2 * 10 ^ 10)))

theorem driftInv_init {ax : Axis} : DriftInv c ax (MState.init c) := by
  refine ⟨gridV_zero, fun _ evs h => ?_⟩
  change SendsG c [] evs at h
  cases h
  change |(Coord.zero : V4 ℝ).get ax * _ - _| ≤ ((([] : List (Gen ℝ)).length : ℕ) : ℝ) * _
  rw [get_zero]
  simp [netSteps, netFrom]

theorem driftInv_linear (henv : ∀ tr, env.move tr = none) {ax : Axis}
    (hp : 0 < c.ppm.get ax) (hp' : c.ppm.get ax < 10 ^ 10) (d : V4 ℝ) (v : ℝ) :
    M.Pres (DriftInv c ax) (moveLinear c env d v) := by
  rintro s ⟨hg, ih⟩
  rcases moveLinear_cases (c := c) (env := env) d v s with ⟨hz, h'⟩ | ⟨_, e, h', _⟩ |
    ⟨_, g, _, hnew, _, ⟨e, he, h'⟩ | ⟨_, h'⟩⟩
  · rw [h']; exact ⟨hg, ih⟩
  · rw [h']; exact ⟨hg, ih⟩
  · rw [henv] at he; cases he
  · rw [h']
    have hP : (0 : ℝ) < c.ppm.get ax := by exact_mod_cast hp
    have hP' : (c.ppm.get ax : ℝ) < 10 ^ 10 := by exact_mod_cast hp'
    refine ⟨gridV_add _ _, fun ha evs he => ?_⟩
    change SendsG c (.linear g :: movesOf s.trace) evs at he
    change ∀ g', Gen.circular g' ∉ .linear g :: movesOf s.trace at ha
    cases he with
    | move h1 h0 =>
    rename_i e0 e1
    have hn := rts_near hp d
    have h2 := (linear_train (gridV_roundToSteps _) hnew h1 hp (n := PyRound.rnd (d.get ax * c.ppm.get ax))
      (lt_of_le_of_lt hn (by rw [div_lt_iff₀ (by norm_num)]; linarith))).1
    have h3 := ih (fun g' hm => ha g' (List.mem_cons_of_mem _ hm)) e0 h0
    rw [netSteps_append (emits_announced h1 List.prefix_rfl), h2]
    dsimp only
    change _ ≤ (((Gen.linear g :: movesOf s.trace).length : ℕ) : ℝ) * _
    rw [get_add_grid hg (gridV_roundToSteps _), List.length_cons]
    push_cast
    rw [abs_le] at *
    constructor <;> linarith [h3.1, h3.2, hn.1, hn.2]

theorem driftInv_circular (henv : ∀ tr, env.move tr = none) {ax : Axis} (d r : V4 ℝ) (v : ℝ)
    (rot : Rot) : M.Pres (DriftInv c ax) (moveCircular c env d r v rot) := by
  rintro s ⟨hg, ih⟩
  rcases moveCircular_moves henv d r v rot s with h | ⟨ce, g, lg, _, _, hnew, hlg, hpos, htr⟩
  · rw [h]; exact ⟨hg, ih⟩
  · unfold DriftInv; rw [hpos, htr]
    refine ⟨gridV_add _ _, fun ha => ?_⟩
    exfalso
    apply ha g
    rw [mem_movesOf]
    cases lg <;> simp

theorem driftInv_other {ax : Axis} (s s' : MState ℝ) (h : DriftInv c ax s) (hp : s'.pos = s.pos)
    (hm : movesOf s'.trace = movesOf s.trace) : DriftInv c ax s' := by
  unfold DriftInv
  rw [hp, hm]
  exact h

/-- The position is next to where the motors are. -/
theorem position_drift (henv : ∀ tr, env.move tr = none) {ax : Axis} (hp : 0 < c.ppm.get ax)
    (hp' : c.ppm.get ax < 10 ^ 10) {s : MState ℝ} (hs : Reachable c env s)
    (ha : ∀ g, HalCall.move (.circular g) ∉ s.trace) {evs : List (Event ℝ)}
    (he : Sends c s.trace evs) :
    |s.pos.get ax * c.ppm.get ax - netSteps c ax evs| ≤
      moveCount s.trace * (c.ppm.get ax / (2 * 10 ^ 10)) := by
  rw [moveCount_eq]
  refine (reachable_moves (P := DriftInv c ax) driftInv_init (driftInv_linear henv hp hp')
    (driftInv_circular henv) driftInv_other hs).2 (fun g hg => ha g (mem_movesOf.1 hg)) evs
    (sends_iff.1 he)

end PyCNC
