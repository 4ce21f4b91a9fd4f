import Verif.Spec.Jobs
import Verif.Lemmas.MachineExact
import Verif.Lemmas.LinearNew
import Verif.Lemmas.LinearCheck

/-!
# The machine only asks for moves of realistic size
-/

namespace PyCNC

open Spec

section exact

variable [PyRound] {c : Cfg} {env : Env ℝ}

/-- The position is inside the table. -/
structure InTable (c : Cfg) (p : V4 ℝ) : Prop where
  grid : GridV p
  x : 0 ≤ p.x ∧ p.x ≤ c.tableX
  y : 0 ≤ p.y ∧ p.y ≤ c.tableY
  z : 0 ≤ p.z ∧ p.z ≤ c.tableZ

theorem checkDelta_inTable (ht : TableOk c) {p d : V4 ℝ} (hp : GridV p)
    (h : checkDelta c p (roundToSteps c d) = .ok ()) :
    InTable c (Coord.add p (roundToSteps c d)) := by
  obtain ⟨⟨hx0, hx⟩, ⟨hy0, hy⟩, ⟨hz0, hz⟩⟩ := ht
  have := (checkDelta_ok (decimalQ_grid hx) (decimalQ_grid hy) (decimalQ_grid hz)
    ⟨hx0, hy0, hz0⟩ hp (gridV_roundToSteps _)).1 h
  have gx := get_add_grid hp (gridV_roundToSteps (c := c) d) .x
  have gy := get_add_grid hp (gridV_roundToSteps (c := c) d) .y
  have gz := get_add_grid hp (gridV_roundToSteps (c := c) d) .z
  simp only [V4.get] at gx gy gz
  refine ⟨gridV_add _ _, ?_, ?_, ?_⟩
  · rw [gx]; exact this.1
  · rw [gy]; exact this.2.1
  · rw [gz]; exact this.2.2

theorem inTable_zero (ht : TableOk c) : InTable c Coord.zero := by
  obtain ⟨⟨hx0, hx⟩, ⟨hy0, hy⟩, ⟨hz0, hz⟩⟩ := ht
  have zx := get_zero .x
  have zy := get_zero .y
  have zz := get_zero .z
  simp only [V4.get] at zx zy zz
  refine ⟨gridV_zero, ?_, ?_, ?_⟩
  · rw [zx]; exact ⟨le_refl 0, by exact_mod_cast hx0⟩
  · rw [zy]; exact ⟨le_refl 0, by exact_mod_cast hy0⟩
  · rw [zz]; exact ⟨le_refl 0, by exact_mod_cast hz0⟩

theorem reachable_inTable (ht : TableOk c) {s : MState ℝ} (hs : Reachable c env s) :
    InTable c s.pos :=
  reachable_pos (inTable_zero ht) (fun _ _ hp _ h => checkDelta_inTable ht hp h) hs

/-- A nonzero rounded displacement is at least a step, which is at least 1/1000 mm. -/
theorem roundToSteps_ge (hc : SaneCfg c) (d : V4 ℝ) (ax : Axis)
    (h : (roundToSteps c d).get ax ≠ 0) : 1 / 1000 ≤ |(roundToSteps c d).get ax| := by
  have hp : (0 : ℝ) < c.ppm.get ax := by exact_mod_cast hc.ppm_pos ax
  have hp' : (c.ppm.get ax : ℝ) ≤ 1000 := by exact_mod_cast hc.ppm_le ax
  have hg : Grid (1 / 1000 : ℝ) := ⟨10 ^ 7, by unfold E10; norm_num⟩
  rw [get_roundToSteps] at h ⊢
  set k := PyRound.rnd (d.get ax / (1 / (c.ppm.get ax : ℝ))) with hk
  have h1 : (1 : ℝ) / 1000 ≤ 1 / (c.ppm.get ax : ℝ) := by
    rw [div_le_div_iff₀ (by norm_num) hp]; linarith
  rcases lt_trichotomy k 0 with hk0 | hk0 | hk0
  · have hk1 : (k : ℝ) ≤ -1 := by exact_mod_cast (by omega : k ≤ -1)
    have h2 : (k : ℝ) * (1 / (c.ppm.get ax : ℝ)) ≤ -(1 / 1000) := by nlinarith
    have := round10_le_grid hg.neg h2
    rw [abs_of_nonpos (by linarith)]
    linarith
  · rw [hk0] at h
    simp at h
  · have hk1 : (1 : ℝ) ≤ k := by exact_mod_cast (by omega : 1 ≤ k)
    have h2 : 1 / 1000 ≤ (k : ℝ) * (1 / (c.ppm.get ax : ℝ)) := by nlinarith
    have := le_round10_grid hg h2
    rw [abs_of_nonneg (by linarith)]
    linarith

theorem isZero_false {v : V4 ℝ} (h : Coord.isZero v = false) : ∃ ax, v.get ax ≠ 0 := by
  by_contra hc
  push Not at hc
  rw [(isZero_iff v).2 hc] at h
  cases h

/-- Rounding to steps changes a coordinate by at most half a step. -/
theorem roundToSteps_abs_le (d : V4 ℝ) (ax : Axis) (hp1 : 1 ≤ c.ppm.get ax) :
    |(roundToSteps c d).get ax| ≤ |d.get ax| + 1 := by
  have h := roundToSteps_near (c := c) (ax := ax) (by linarith) d
  have hp : (1 : ℝ) ≤ c.ppm.get ax := by exact_mod_cast hp1
  have h1 : 1 / 2 / (c.ppm.get ax : ℝ) ≤ 1 / 2 := by
    rw [div_le_iff₀ (by linarith)]; linarith
  have h2 : 1 / 2 / E10 ≤ (1 / 2 : ℝ) := by unfold E10; norm_num
  have := abs_sub_abs_le_abs_sub ((roundToSteps c d).get ax) (d.get ax)
  linarith

/-- What the machine passes to the generator is a move of realistic size. -/
theorem ordinary_of_check (hc : SaneMachine c) {p d : V4 ℝ} {v : ℝ} (hp : InTable c p)
    (hz : Coord.isZero (roundToSteps c d) = false)
    (h : checkDelta c p (roundToSteps c d) = .ok ())
    (he : |(roundToSteps c d).e| ≤ 10 ^ 4) (hv : 1 ≤ v) :
    OrdinaryMove (roundToSteps c d) v := by
  have h2 := checkDelta_inTable hc.table hp.grid h
  have gx := get_add_grid hp.grid (gridV_roundToSteps (c := c) d) .x
  have gy := get_add_grid hp.grid (gridV_roundToSteps (c := c) d) .y
  have gz := get_add_grid hp.grid (gridV_roundToSteps (c := c) d) .z
  simp only [V4.get] at gx gy gz
  have tx : (c.tableX : ℝ) ≤ 10 ^ 4 := by exact_mod_cast hc.sizeX
  have ty : (c.tableY : ℝ) ≤ 10 ^ 4 := by exact_mod_cast hc.sizeY
  have tz : (c.tableZ : ℝ) ≤ 10 ^ 4 := by exact_mod_cast hc.sizeZ
  refine ⟨gridV_roundToSteps d, isZero_false hz, fun ax => ?_, fun ax => roundToSteps_ge hc.cfg d ax,
    hv⟩
  cases ax <;> simp only [V4.get]
  · have := h2.x; rw [gx] at this; have := hp.x; exact abs_le.2 ⟨by linarith, by linarith⟩
  · have := h2.y; rw [gy] at this; have := hp.y; exact abs_le.2 ⟨by linarith, by linarith⟩
  · have := h2.z; rw [gz] at this; have := hp.z; exact abs_le.2 ⟨by linarith, by linarith⟩
  · exact he

theorem rapidAxis_ge {vl p : ℝ} {m : ℚ} (hvl : 60 ≤ vl) (hp : p ≤ 1) (hm : 60 ≤ m) :
    60 ≤ rapidAxis vl p m := by
  unfold rapidAxis
  split
  · rename_i h
    have h0 : 0 < p := by simpa using h
    dsimp only
    split
    · have hm' : (60 : ℝ) ≤ m := by exact_mod_cast hm
      have h2 : (60 : ℝ) ≤ (m : ℝ) / p := by rw [le_div_iff₀ h0]; nlinarith
      rw [ofInt_eq, truncI_eq, div_eq, ofRat_eq, if_pos (by linarith)]
      have h3 : (60 : ℤ) ≤ ⌊(m : ℝ) / p⌋ := Int.le_floor.2 (by exact_mod_cast h2)
      exact_mod_cast h3
    · exact hvl
  · exact hvl

theorem maxMaxVel_eq : (maxMaxVel c : ℝ) =
    max (max (max (c.maxVel.x : ℝ) c.maxVel.y) c.maxVel.z) c.maxVel.e := by
  simp [maxMaxVel, pmax_eq]

/-- The velocity of a rapid move. -/
theorem rapidVelocity_ok (hc : SaneCfg c) {d : V4 ℝ} (hd : GridV d) :
    ∃ v, rapidVelocity c d = .ok v ∧ 60 ≤ v := by
  have h0 : (60 : ℝ) ≤ maxMaxVel c := by
    rw [maxMaxVel_eq]
    have := hc.maxVel .e
    simp only [V4.get] at this
    have : (60 : ℝ) ≤ c.maxVel.e := by exact_mod_cast this
    exact this.trans (le_max_right _ _)
  unfold rapidVelocity
  dsimp only
  split
  · rename_i hl
    have hl' : 0 < Coord.length d := by simpa using hl
    have hlen : Coord.length d = norm4 d := length_eq d
    have hp : ∀ ax, |d.get ax| / Coord.length d ≤ 1 := fun ax => by
      rw [div_le_one hl', hlen]; exact abs_le_norm4 d ax
    have one : Grid (1 : ℝ) := by simpa using Grid.int 1
    have hr : ∀ ax, PyNum.round10 ((Coord.abs d).get ax / Coord.length d) ≤ 1 := fun ax => by
      rw [get_abs_grid hd]
      exact round10_le_grid one (hp ax)
    have hx := hr .x
    have hy := hr .y
    have hz := hr .z
    have he := hr .e
    simp only [V4.get] at hx hy hz he
    unfold Coord.sdiv
    rw [pdiv_ok hl'.ne', pdiv_ok hl'.ne', pdiv_ok hl'.ne', pdiv_ok hl'.ne']
    refine ⟨_, rfl, ?_⟩
    exact rapidAxis_ge (rapidAxis_ge (rapidAxis_ge (rapidAxis_ge h0 hx (hc.maxVel .x)) hy
      (hc.maxVel .y)) hz (hc.maxVel .z)) he (hc.maxVel .e)
  · exact ⟨_, rfl, h0⟩

end exact

end PyCNC
