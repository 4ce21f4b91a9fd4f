import Verif.Spec.Arc
import Verif.Lemmas.Pulses
import Mathlib.Algebra.BigOperators.Group.Finset.Basic
import Mathlib.Algebra.BigOperators.Intervals

/-!
# Circular moves in any arithmetic: which pulses are sent
-/

set_option linter.unusedSectionVars false

namespace PyCNC

open Spec

/-! ## The triangle wave -/

theorem helper_zero {s R d : Int} {side : Bool} (h1 : -R ≤ s) (h2 : s ≤ R) :
    circularHelper s 0 R side d = (s, d, side) := by
  unfold circularHelper
  have h3 : ¬ R < s := by omega
  have h4 : ¬ s < -R := by omega
  simp [h3, h4]

/-- The three reflections of `__circular_helper`. -/
theorem helper_cases (s R d : Int) (side : Bool) (i : Int) :
    ∃ n1 d1 b1 n2 d2 b2 n3 d3 b3, circularHelper s i R side d = (n3, d3, b3) ∧
    ((s + d * i > R ∧ n1 = 2 * R - (s + d * i) ∧ d1 = -d ∧ b1 = !side) ∨
     (s + d * i ≤ R ∧ n1 = s + d * i ∧ d1 = d ∧ b1 = side)) ∧
    ((n1 < -R ∧ n2 = -2 * R - n1 ∧ d2 = -d1 ∧ b2 = !b1) ∨ (-R ≤ n1 ∧ n2 = n1 ∧ d2 = d1 ∧ b2 = b1)) ∧
    ((n2 > R ∧ n3 = 2 * R - n2 ∧ d3 = -d2 ∧ b3 = !b2) ∨ (n2 ≤ R ∧ n3 = n2 ∧ d3 = d2 ∧ b3 = b2)) := by
  have key : ∀ (n : Int) (d : Int) (b : Bool), ∃ n' d' b',
      (if n > R then (n - 2 * (n - R), -d, !b) else (n, d, b)) = (n', d', b') ∧
      ((n > R ∧ n' = 2 * R - n ∧ d' = -d ∧ b' = !b) ∨ (n ≤ R ∧ n' = n ∧ d' = d ∧ b' = b)) := by
    intro n d b
    split
    · next h => exact ⟨_, _, _, rfl, .inl ⟨h, by omega, rfl, rfl⟩⟩
    · next h => exact ⟨_, _, _, rfl, .inr ⟨by omega, rfl, rfl, rfl⟩⟩
  have key2 : ∀ (n : Int) (d : Int) (b : Bool), ∃ n' d' b',
      (if n < -R then (n - 2 * (n + R), -d, !b) else (n, d, b)) = (n', d', b') ∧
      ((n < -R ∧ n' = -2 * R - n ∧ d' = -d ∧ b' = !b) ∨ (-R ≤ n ∧ n' = n ∧ d' = d ∧ b' = b)) := by
    intro n d b
    split
    · next h => exact ⟨_, _, _, rfl, .inl ⟨h, by omega, rfl, rfl⟩⟩
    · next h => exact ⟨_, _, _, rfl, .inr ⟨by omega, rfl, rfl, rfl⟩⟩
  obtain ⟨n1, d1, b1, h1, c1⟩ := key (s + d * i) d side
  obtain ⟨n2, d2, b2, h2, c2⟩ := key2 n1 d1 b1
  obtain ⟨n3, d3, b3, h3, c3⟩ := key n2 d2 b2
  refine ⟨n1, d1, b1, n2, d2, b2, n3, d3, b3, ?_, c1, c2, c3⟩
  unfold circularHelper
  simp only [h1, h2, h3]

/-- Closed form of the helper on its range, moving up at first. -/
theorem helper_up {s R : Int} {side : Bool} {i : Int} (h1 : -R ≤ s) (h2 : s ≤ R) (h0 : 0 ≤ i)
    (hi : i ≤ 4 * R) : circularHelper s i R side 1 =
      if s + i ≤ R then (s + i, 1, side)
      else if s + i ≤ 3 * R then (2 * R - s - i, -1, !side) else (s + i - 4 * R, 1, side) := by
  obtain ⟨n1, d1, b1, n2, d2, b2, n3, d3, b3, e, c1, c2, c3⟩ := helper_cases s R 1 side i
  rw [e]
  rcases c1 with ⟨h3, h4, rfl, rfl⟩ | ⟨h3, h4, rfl, rfl⟩
  · rw [if_neg (by omega)]
    rcases c2 with ⟨h5, h6, rfl, rfl⟩ | ⟨h5, h6, rfl, rfl⟩
    · rw [if_neg (by omega)]
      rcases c3 with ⟨h7, h8, rfl, rfl⟩ | ⟨h7, h8, rfl, rfl⟩
      · omega
      · refine Prod.ext (by simp only; omega) (Prod.ext (by simp) (by simp))
    · rw [if_pos (by omega)]
      rcases c3 with ⟨h7, h8, rfl, rfl⟩ | ⟨h7, h8, rfl, rfl⟩
      · omega
      · refine Prod.ext (by simp only; omega) rfl
  · rw [if_pos (by omega)]
    rcases c2 with ⟨h5, h6, rfl, rfl⟩ | ⟨h5, h6, rfl, rfl⟩
    · omega
    · rcases c3 with ⟨h7, h8, rfl, rfl⟩ | ⟨h7, h8, rfl, rfl⟩
      · omega
      · refine Prod.ext (by simp only; omega) rfl

/-- Closed form of the helper on its range, moving down at first. -/
theorem helper_down {s R : Int} {side : Bool} {i : Int} (h2 : s ≤ R) (h0 : 0 ≤ i) : circularHelper s i R side (-1) =
      if -R ≤ s - i then (s - i, -1, side)
      else if -(3 * R) ≤ s - i then (-2 * R - s + i, 1, !side) else (s - i + 4 * R, -1, side) := by
  obtain ⟨n1, d1, b1, n2, d2, b2, n3, d3, b3, e, c1, c2, c3⟩ := helper_cases s R (-1) side i
  rw [e]
  rcases c1 with ⟨h3, h4, rfl, rfl⟩ | ⟨h3, h4, rfl, rfl⟩
  · omega
  · rcases c2 with ⟨h5, h6, rfl, rfl⟩ | ⟨h5, h6, rfl, rfl⟩
    · rw [if_neg (by omega)]
      rcases c3 with ⟨h7, h8, rfl, rfl⟩ | ⟨h7, h8, rfl, rfl⟩
      · rw [if_neg (by omega)]
        refine Prod.ext (by simp only; omega) (Prod.ext (by simp) (by simp))
      · rw [if_pos (by omega)]
        refine Prod.ext (by simp only; omega) (Prod.ext (by simp) (by simp))
    · rw [if_pos (by omega)]
      rcases c3 with ⟨h7, h8, rfl, rfl⟩ | ⟨h7, h8, rfl, rfl⟩
      · omega
      · refine Prod.ext (by simp only; omega) rfl

theorem bounce_in {R p d : Int} (h : -R ≤ p + d ∧ p + d ≤ R) : bounce R (p, d) = (p + d, d) := by
  unfold bounce; exact if_pos h

theorem bounce_out {R p d : Int} (h : ¬ (-R ≤ p + d ∧ p + d ≤ R)) :
    bounce R (p, d) = (p - d, -d) := by
  unfold bounce; exact if_neg h

theorem helper_succ {s R d : Int} {side : Bool} (i : Nat) (h1 : -R ≤ s) (h2 : s ≤ R)
    (hd : d = 1 ∨ d = -1) (hi : (i : Int) < 4 * R) :
    ((circularHelper s (i + 1) R side d).1, (circularHelper s (i + 1) R side d).2.1) =
      bounce R ((circularHelper s i R side d).1, (circularHelper s i R side d).2.1) := by
  rcases hd with rfl | rfl
  · rw [helper_up h1 h2 (by omega) (by omega), helper_up h1 h2 (by omega) (by omega)]
    by_cases a1 : s + i ≤ R
    · rw [if_pos a1]
      by_cases a2 : s + (i + 1) ≤ R
      · rw [if_pos a2]; simp only
        rw [bounce_in (by omega)]; exact Prod.ext (by simp only; omega) rfl
      · rw [if_neg a2, if_pos (by omega)]; simp only
        rw [bounce_out (by omega)]; exact Prod.ext (by simp only; omega) rfl
    · rw [if_neg a1, if_neg (by omega)]
      by_cases a3 : s + i ≤ 3 * R
      · rw [if_pos a3]
        by_cases a2 : s + (i + 1) ≤ 3 * R
        · rw [if_pos a2]; simp only
          rw [bounce_in (by omega)]; exact Prod.ext (by simp only; omega) rfl
        · rw [if_neg a2]; simp only
          rw [bounce_out (by omega)]; exact Prod.ext (by simp only; omega) rfl
      · rw [if_neg a3, if_neg (by omega)]; simp only
        rw [bounce_in (by omega)]; exact Prod.ext (by simp only; omega) rfl
  · rw [helper_down h2 (by omega), helper_down h2 (by omega)]
    by_cases a1 : -R ≤ s - i
    · rw [if_pos a1]
      by_cases a2 : -R ≤ s - (i + 1)
      · rw [if_pos a2]; simp only
        rw [bounce_in (by omega)]; exact Prod.ext (by simp only; omega) rfl
      · rw [if_neg a2, if_pos (by omega)]; simp only
        rw [bounce_out (by omega)]; exact Prod.ext (by simp only; omega) rfl
    · rw [if_neg a1, if_neg (by omega)]
      by_cases a3 : -(3 * R) ≤ s - i
      · rw [if_pos a3]
        by_cases a2 : -(3 * R) ≤ s - (i + 1)
        · rw [if_pos a2]; simp only
          rw [bounce_in (by omega)]; exact Prod.ext (by simp only; omega) rfl
        · rw [if_neg a2]; simp only
          rw [bounce_out (by omega)]; exact Prod.ext (by simp only; omega) rfl
      · rw [if_neg a3, if_neg (by omega)]; simp only
        rw [bounce_in (by omega)]; exact Prod.ext (by simp only; omega) rfl

theorem helper_walk {s R d : Int} {side : Bool} (i : Nat) (h1 : -R ≤ s) (h2 : s ≤ R)
    (hd : d = 1 ∨ d = -1) (hi : (i : Int) ≤ 4 * R) :
    ((circularHelper s i R side d).1, (circularHelper s i R side d).2.1) = walk R s d i := by
  induction i with
  | zero => simp [helper_zero h1 h2, walk]
  | succ i ih =>
    rw [walk, ← ih (by omega), ← helper_succ i h1 h2 hd (by push_cast at hi; omega)]
    push_cast
    rfl

theorem walk_dir {R s d : Int} (hd : d = 1 ∨ d = -1) (i : Nat) :
    (walk R s d i).2 = 1 ∨ (walk R s d i).2 = -1 := by
  induction i with
  | zero => exact hd
  | succ i ih =>
    rw [walk]; unfold bounce
    split
    · exact ih
    · simp only; omega

theorem walk_step {R s d : Int} (i : Nat) :
    (walk R s d (i + 1)).1 = (walk R s d i).1 + (walk R s d (i + 1)).2 := by
  rw [walk]; unfold bounce
  split
  · rfl
  · simp only; omega

theorem walk_range {R s d : Int} (h1 : -R ≤ s) (h2 : s ≤ R) (hR : 0 < R) (hd : d = 1 ∨ d = -1)
    (i : Nat) : -R ≤ (walk R s d i).1 ∧ (walk R s d i).1 ≤ R := by
  induction i with
  | zero => exact ⟨h1, h2⟩
  | succ i ih =>
    have := walk_dir (R := R) (s := s) hd i
    rw [walk]; unfold bounce
    split
    · assumption
    · simp only; omega

theorem walk_sum {R s d : Int} (i : Nat) :
    ∑ j ∈ Finset.range i, (walk R s d (j + 1)).2 = (walk R s d i).1 - s := by
  induction i with
  | zero => simp [walk]
  | succ i ih => rw [Finset.sum_range_succ, ih, walk_step i]; ring

section Any

variable {F : Type} [PyNum F]

/-! ## Runs of a generator whose directions and pulses follow a plan -/

/-- The directions and the end of the pulses of every axis depend on the number of pulses sent
to that axis alone. -/
def Planned (c : Cfg) (g : Gen F) (D : Axis → Nat → Int) (fires : Axis → Nat → Bool) : Prop :=
  ∀ it d t, g.interp c it = .ok (d, t) →
    ∀ ax, d.get ax = D ax (it.get ax) ∧ (t.get ax).isSome = fires ax (it.get ax)

theorem planned_net {c : Cfg} {g : Gen F} {D : Axis → Nat → Int} {fires : Axis → Nat → Bool}
    (hp : Planned c g D fires) (n : Nat) (s : GenState) (ax : Axis) (d0 : Int)
    (h0 : ∀ d, s.dir = some d → d0 = d.get ax) :
    netFrom c ax d0 (g.run c n s).1 =
      ∑ j ∈ Finset.range (steps ax (g.run c n s).1), D ax (s.it.get ax + j) := by
  induction n generalizing s d0 with
  | zero => simp [Gen.run, netFrom, steps, stepTimes]
  | succ n ih =>
    rcases run_succ c g n s with ⟨e, _, h⟩ | ⟨h1, h⟩ | ⟨ev, s', h1, h⟩ <;> rw [h]
    · simp [netFrom, steps, stepTimes]
    · simp [netFrom, steps, stepTimes]
    · rcases next_cases c g s with ⟨e, _, h2⟩ | ⟨d, t, hi, h2⟩
      · rw [h1] at h2; cases h2
      rcases h2 with ⟨hd, h2⟩ | ⟨_, _, h2⟩ | ⟨m, hd, _, ⟨e, _, h2⟩ | ⟨am, _, h2⟩⟩ <;>
        rw [h1] at h2 <;> cases h2
      · simp only [netFrom]
        rw [steps_cons]
        have h3 : steps ax [(Event.dir (invertDirs c d) : Event F)] = 0 := rfl
        rw [h3, Nat.zero_add, ih ⟨s.it, some d⟩]
        intro d' hd'
        cases hd'
        rw [get_invertDirs]
        split <;> simp
      · simp only [netFrom]
        rw [steps_cons]
        rw [ih ⟨advanced t m am s.it, s.dir⟩ d0 h0]
        simp only [advanced, fired, get_ofFn, steps, stepTimes]
        rcases fireAxis_cases (t.get ax) m am (s.it.get ax) with hf | ⟨τ, ht, _, hf⟩ <;> rw [hf]
        · simp
        · simp only [Option.isSome_some, if_true, List.length_cons, List.length_nil]
          rw [Nat.add_comm 1, Finset.sum_range_succ', Nat.add_zero,
            h0 d hd.symm, (hp _ _ _ hi ax).1, add_comm]
          congr 1
          refine Finset.sum_congr rfl fun j _ => ?_
          congr 1; omega

theorem planned_next {c : Cfg} {g : Gen F} {D : Axis → Nat → Int} {fires : Axis → Nat → Bool}
    (hp : Planned c g D fires) {s s' : GenState} {ev : Event F}
    (h : g.next c s = .ok (some (ev, s'))) (ax : Axis) :
    s'.it.get ax = s.it.get ax + steps ax [ev] ∧
    (steps ax [ev] = 0 ∨ (steps ax [ev] = 1 ∧ fires ax (s.it.get ax) = true)) := by
  rcases next_cases c g s with ⟨e, _, h2⟩ | ⟨d, t, hi, h2⟩
  · rw [h] at h2; cases h2
  rcases h2 with ⟨_, h2⟩ | ⟨_, _, h2⟩ | ⟨m, _, _, ⟨e, _, h2⟩ | ⟨am, _, h2⟩⟩ <;> rw [h] at h2 <;>
    cases h2
  · exact ⟨rfl, .inl rfl⟩
  · have hf := fireAxis_cases (t.get ax) m am (s.it.get ax)
    simp only [advanced, get_ofFn, steps, stepTimes, fired]
    rcases hf with hf | ⟨τ, h1, _, hf⟩
    · rw [hf]; exact ⟨rfl, .inl rfl⟩
    · rw [hf]
      refine ⟨rfl, .inr ⟨rfl, ?_⟩⟩
      rw [← (hp _ _ _ hi ax).2, h1]; rfl

theorem planned_stop {c : Cfg} {g : Gen F} {D : Axis → Nat → Int} {fires : Axis → Nat → Bool}
    (hp : Planned c g D fires) {s : GenState} (h : g.next c s = .ok none) (ax : Axis) :
    fires ax (s.it.get ax) = false := by
  rcases next_cases c g s with ⟨e, _, h2⟩ | ⟨d, t, hi, h2⟩
  · rw [h] at h2; cases h2
  rcases h2 with ⟨_, h2⟩ | ⟨_, hm, h2⟩ | ⟨m, _, _, ⟨e, _, h2⟩ | ⟨am, _, h2⟩⟩ <;> rw [h] at h2 <;>
    cases h2
  rw [← (hp _ _ _ hi ax).2, minTime_none hm ax]; rfl

/-- If an axis has exactly the pulses before `total`, that many are sent. -/
theorem planned_steps {c : Cfg} {g : Gen F} {D : Axis → Nat → Int} {fires : Axis → Nat → Bool}
    (hp : Planned c g D fires) (ax : Axis) (total : Nat)
    (hf : ∀ i, fires ax i = true ↔ i < total) (n : Nat) (s : GenState)
    (hs : s.it.get ax ≤ total) :
    s.it.get ax + steps ax (g.run c n s).1 ≤ total ∧
    ((g.run c n s).2 = .done → s.it.get ax + steps ax (g.run c n s).1 = total) := by
  induction n generalizing s with
  | zero => exact ⟨hs, fun h => by cases h⟩
  | succ n ih =>
    rcases run_succ c g n s with ⟨e, _, h⟩ | ⟨h1, h⟩ | ⟨ev, s', h1, h⟩ <;> rw [h]
    · exact ⟨hs, fun h => by cases h⟩
    · refine ⟨hs, fun _ => ?_⟩
      have h2 := planned_stop hp h1 ax
      rw [← Bool.not_eq_true, hf] at h2
      change s.it.get ax + 0 = total
      omega
    · obtain ⟨h2, h3⟩ := planned_next hp h1 ax
      obtain ⟨h4, h5⟩ := ih s' (by rcases h3 with h3 | ⟨h3, h6⟩ <;> [omega; (rw [hf] at h6; omega)])
      rw [steps_cons]
      constructor
      · omega
      · intro hd; have := h5 hd; omega

end Any

section Ends

variable {F : Type} [PyNum F] [PyOrd F]

/-- Sum of what is left. -/
def leftOf (total : Axis → Nat) (s : GenState) : Nat :=
  (total .x - s.it.x) + (total .y - s.it.y) + (total .z - s.it.z) + (total .e - s.it.e)

theorem leftOf_lt {total : Axis → Nat} {s s' : GenState}
    (h1 : ∀ ax, s.it.get ax ≤ s'.it.get ax)
    (h2 : ∃ ax, s.it.get ax < s'.it.get ax ∧ s'.it.get ax ≤ total ax) :
    leftOf total s' < leftOf total s := by
  have hx := h1 .x; have hy := h1 .y; have hz := h1 .z; have he := h1 .e
  obtain ⟨ax, h2, h3⟩ := h2
  unfold leftOf
  cases ax <;> simp only [V4.get] at * <;> omega

/-- Every planned generator ends after at most two calls per pulse, plus two. -/
theorem planned_ends {c : Cfg} {g : Gen F} {D : Axis → Nat → Int} {fires : Axis → Nat → Bool}
    (hp : Planned c g D fires) (total : Axis → Nat)
    (hf : ∀ ax i, fires ax i = true ↔ i < total ax) (n : Nat) (s : GenState)
    (hs : ∀ ax, s.it.get ax ≤ total ax)
    (hn : 2 * leftOf total s +
      (if s.dir = some (V4.ofFn fun ax => D ax (s.it.get ax)) then 0 else 1) < n) :
    (g.run c n s).2 ≠ .unfinished := by
  induction n generalizing s with
  | zero => omega
  | succ n ih =>
    rcases run_succ c g n s with ⟨e, _, h⟩ | ⟨h1, h⟩ | ⟨ev, s', h1, h⟩ <;> rw [h]
    · simp
    · simp
    · have hs' : ∀ ax, s'.it.get ax ≤ total ax := fun ax => by
        obtain ⟨h2, h3⟩ := planned_next hp h1 ax
        have := hs ax
        rcases h3 with h3 | ⟨h3, h6⟩
        · omega
        · rw [hf] at h6; omega
      refine ih s' hs' ?_
      rcases next_cases c g s with ⟨e, _, h2⟩ | ⟨d, t, hi, h2⟩
      · rw [h1] at h2; cases h2
      have hd' : d = V4.ofFn fun ax => D ax (s.it.get ax) := by
        obtain ⟨dx, dy, dz, de⟩ := d
        have hx := (hp _ _ _ hi .x).1
        have hy := (hp _ _ _ hi .y).1
        have hz := (hp _ _ _ hi .z).1
        have he := (hp _ _ _ hi .e).1
        simp only [V4.get] at hx hy hz he
        simp only [V4.ofFn, V4.get, hx, hy, hz, he]
      rcases h2 with ⟨hd, h2⟩ | ⟨_, _, h2⟩ | ⟨m, hd, _, ⟨e, _, h2⟩ | ⟨am, _, h2⟩⟩ <;>
        rw [h1] at h2 <;> cases h2
      · rw [if_neg (by rw [← hd']; exact fun h => hd h.symm)] at hn
        simp only [← hd', if_true]
        have : leftOf total ⟨s.it, some d⟩ = leftOf total s := rfl
        rw [this]; omega
      · rw [if_pos (by rw [← hd']; exact hd.symm)] at hn
        obtain ⟨τ, ⟨ax, hax⟩, _⟩ := next_stepsAt h1
        have h5 : leftOf total ⟨advanced t m am s.it, s.dir⟩ < leftOf total s := by
          refine leftOf_lt (fun ax => by rw [(planned_next hp h1 ax).1]; omega) ⟨ax, ?_, hs' ax⟩
          rw [(planned_next hp h1 ax).1]
          have : steps ax [Event.pulse (fired t m am s.it)] = 1 := by
            simp [steps, stepTimes, hax]
          omega
        split <;> omega

end Ends

/-! ## The plan of a circular move -/

section Circ

variable {F : Type} [PyNum F]

/-- `_interpolation_function` of one axis. -/
def CircGen.axisAt (c : Cfg) (g : CircGen F) (ax : Axis) (i : Nat) :
    Except PyErr (Int × Option F) :=
  if ax = axisA g.plane then g.circularA i (c.ppm.get ax)
  else if ax = axisB g.plane then g.circularB i (c.ppm.get ax)
  else if ax = axis3 g.plane then
    (circLinear i g.it3 (c.ppm.get ax) g.vel3).map fun t => (g.dir3, t)
  else (circLinear i g.itE (c.ppm.get ax) g.velE).map fun t => (g.dirE, t)

theorem circ_interp {c : Cfg} {g : CircGen F} {it : V4 Nat} {d : V4 Int} {t : V4 (Option F)} :
    g.interp c it = .ok (d, t) ↔ ∀ ax, g.axisAt c ax (it.get ax) = .ok (d.get ax, t.get ax) := by
  obtain ⟨dx, dy, dz, de⟩ := d
  obtain ⟨tx, ty, tz, te⟩ := t
  have hall : ∀ P : Axis → Prop, (∀ ax, P ax) ↔ P .x ∧ P .y ∧ P .z ∧ P .e := fun P =>
    ⟨fun h => ⟨h _, h _, h _, h _⟩, fun ⟨h1, h2, h3, h4⟩ ax => by cases ax <;> assumption⟩
  rw [hall]
  unfold CircGen.interp CircGen.axisAt
  rcases hpl : g.plane with _ | _ | _ <;>
    simp only [axisA, axisB, axis3, V4.get, reduceCtorEq, if_true, if_false]
  · generalize g.circularA it.x c.ppm.x = A
    generalize g.circularB it.y c.ppm.y = B
    generalize circLinear it.z g.it3 c.ppm.z g.vel3 = C
    generalize circLinear it.e g.itE c.ppm.e g.velE = D
    rcases A with e | ⟨_, _⟩ <;> rcases B with e | ⟨_, _⟩ <;> rcases C with e | _ <;>
      rcases D with e | _ <;> (simp [bind, Except.bind, Except.map, pure, Except.pure]; try tauto)
  · generalize g.circularA it.z c.ppm.z = A
    generalize g.circularB it.x c.ppm.x = B
    generalize circLinear it.y g.it3 c.ppm.y g.vel3 = C
    generalize circLinear it.e g.itE c.ppm.e g.velE = D
    rcases A with e | ⟨_, _⟩ <;> rcases B with e | ⟨_, _⟩ <;> rcases C with e | _ <;>
      rcases D with e | _ <;> (simp [bind, Except.bind, Except.map, pure, Except.pure]; try tauto)
  · generalize g.circularA it.y c.ppm.y = A
    generalize g.circularB it.z c.ppm.z = B
    generalize circLinear it.x g.it3 c.ppm.x g.vel3 = C
    generalize circLinear it.e g.itE c.ppm.e g.velE = D
    rcases A with e | ⟨_, _⟩ <;> rcases B with e | ⟨_, _⟩ <;> rcases C with e | _ <;>
      rcases D with e | _ <;> (simp [bind, Except.bind, Except.map, pure, Except.pure]; try tauto)

/-- The direction of the pulse after `i` pulses. -/
def CircGen.dirAt (g : CircGen F) (ax : Axis) (i : Nat) : Int :=
  if ax = axisA g.plane then
    if (i : Int) ≥ g.itA then g.dirA
    else (circularHelper g.startAP (i + 1) g.radiusAP g.sideA g.dirA).2.1
  else if ax = axisB g.plane then
    if (i : Int) ≥ g.itB then g.dirB
    else (circularHelper g.startBP (i + 1) g.radiusBP g.sideB g.dirB).2.1
  else if ax = axis3 g.plane then g.dir3
  else g.dirE

/-- Whether there is a pulse after `i` pulses. -/
def CircGen.firesAt (g : CircGen F) (ax : Axis) (i : Nat) : Bool :=
  if ax = axisA g.plane then decide ((i : Int) < g.itA)
  else if ax = axisB g.plane then decide ((i : Int) < g.itB)
  else if ax = axis3 g.plane then !(g.it3 ≤ₚ ofInt i)
  else !(g.itE ≤ₚ ofInt i)

theorem circLinear_isSome {i : Nat} {total : F} {ppm : Rat} {v : F} {t : Option F}
    (h : circLinear i total ppm v = .ok t) : t.isSome = !(total ≤ₚ ofInt i) := by
  unfold circLinear at h
  split at h
  · next hle => cases h; rw [hle]; rfl
  · next hle =>
    rw [Bool.not_eq_true] at hle
    rw [hle]
    rcases hq : pdiv (ofInt (↑i) /ₚ PyNum.ofRat ppm) v with e | q <;> rw [hq] at h <;> cases h
    rfl

theorem circularA_plan {g : CircGen F} {i : Nat} {ppm : Rat} {d : Int} {t : Option F}
    (h : g.circularA i ppm = .ok (d, t)) :
    d = (if (i : Int) ≥ g.itA then g.dirA
      else (circularHelper g.startAP (i + 1) g.radiusAP g.sideA g.dirA).2.1) ∧
    t.isSome = decide ((i : Int) < g.itA) := by
  unfold CircGen.circularA at h
  split at h
  · next hle => cases h; simp only [if_pos hle, true_and]; simp; omega
  · next hle =>
    rw [if_neg hle, decide_eq_true (by omega)]
    simp only at h
    split at h
    · cases h; exact ⟨rfl, rfl⟩
    · generalize circularHelper g.startAP (i + 1) g.radiusAP g.sideA g.dirA = w at h ⊢
      rcases h1 : psqrt (g.radiusA2 -ₚ (ofInt w.1 /ₚ PyNum.ofRat ppm) *ₚ (ofInt w.1 /ₚ PyNum.ofRat ppm)) with e | b
      · rw [h1] at h; cases h
      · rw [h1] at h
        rcases h2 : g.findTime (ofInt w.1 /ₚ PyNum.ofRat ppm) (if w.2.2 then PyNum.neg b else b) with e | q
        · simp only [bind, Except.bind, h2] at h; cases h
        · simp only [bind, Except.bind, h2] at h; cases h; exact ⟨rfl, rfl⟩

theorem circularB_plan {g : CircGen F} {i : Nat} {ppm : Rat} {d : Int} {t : Option F}
    (h : g.circularB i ppm = .ok (d, t)) :
    d = (if (i : Int) ≥ g.itB then g.dirB
      else (circularHelper g.startBP (i + 1) g.radiusBP g.sideB g.dirB).2.1) ∧
    t.isSome = decide ((i : Int) < g.itB) := by
  unfold CircGen.circularB at h
  split at h
  · next hle => cases h; simp only [if_pos hle, true_and]; simp; omega
  · next hle =>
    rw [if_neg hle, decide_eq_true (by omega)]
    simp only at h
    split at h
    · cases h; exact ⟨rfl, rfl⟩
    · generalize circularHelper g.startBP (i + 1) g.radiusBP g.sideB g.dirB = w at h ⊢
      rcases h1 : psqrt (g.radiusB2 -ₚ (ofInt w.1 /ₚ PyNum.ofRat ppm) *ₚ (ofInt w.1 /ₚ PyNum.ofRat ppm)) with e | b
      · rw [h1] at h; cases h
      · rw [h1] at h
        rcases h2 : g.findTime (if w.2.2 then PyNum.neg b else b) (ofInt w.1 /ₚ PyNum.ofRat ppm) with e | q
        · simp only [bind, Except.bind, h2] at h; cases h
        · simp only [bind, Except.bind, h2] at h; cases h; exact ⟨rfl, rfl⟩

theorem circ_planned (c : Cfg) (g : CircGen F) : Planned c (.circular g) g.dirAt g.firesAt := by
  intro it d t h ax
  have h1 := circ_interp.1 (h : g.interp c it = .ok (d, t)) ax
  unfold CircGen.axisAt at h1
  unfold CircGen.dirAt CircGen.firesAt
  split at h1
  · simp only [if_pos ‹ax = axisA g.plane›]
    exact circularA_plan h1
  split at h1
  · simp only [if_neg ‹¬ax = axisA g.plane›, if_pos ‹ax = axisB g.plane›]
    exact circularB_plan h1
  split at h1
  · simp only [if_neg ‹¬ax = axisA g.plane›, if_neg ‹¬ax = axisB g.plane›,
      if_pos ‹ax = axis3 g.plane›]
    rcases h2 : circLinear (it.get ax) g.it3 (c.ppm.get ax) g.vel3 with e | q <;> rw [h2] at h1
    · cases h1
    · simp only [Except.map, Except.ok.injEq, Prod.mk.injEq] at h1
      exact ⟨h1.1.symm, h1.2 ▸ circLinear_isSome h2⟩
  · simp only [if_neg ‹¬ax = axisA g.plane›, if_neg ‹¬ax = axisB g.plane›,
      if_neg ‹¬ax = axis3 g.plane›]
    rcases h2 : circLinear (it.get ax) g.itE (c.ppm.get ax) g.velE with e | q <;> rw [h2] at h1
    · cases h1
    · simp only [Except.map, Except.ok.injEq, Prod.mk.injEq] at h1
      exact ⟨h1.1.symm, h1.2 ▸ circLinear_isSome h2⟩

/-- Net steps of the first circular axis after any number of calls, in any arithmetic. -/
theorem circ_run_a (c : Cfg) (g : CircGen F) (n : Nat) (h1 : -g.radiusAP ≤ g.startAP)
    (h2 : g.startAP ≤ g.radiusAP) (hd : g.dirA = 1 ∨ g.dirA = -1) (hit : g.itA ≤ 4 * g.radiusAP) :
    netSteps c (axisA g.plane) ((Gen.circular g).run c n .init).1 =
      (walk g.radiusAP g.startAP g.dirA
        (steps (axisA g.plane) ((Gen.circular g).run c n .init).1)).1 - g.startAP ∧
    steps (axisA g.plane) ((Gen.circular g).run c n .init).1 ≤ g.itA.toNat ∧
    (((Gen.circular g).run c n .init).2 = .done →
      steps (axisA g.plane) ((Gen.circular g).run c n .init).1 = g.itA.toNat) := by
  have hz : GenState.init.it.get (axisA g.plane) = 0 := by cases g.plane <;> rfl
  obtain ⟨h3, h4⟩ := planned_steps (circ_planned c g) (axisA g.plane) g.itA.toNat
    (fun i => by simp only [CircGen.firesAt, if_true, decide_eq_true_eq]; omega) n .init
    (by rw [hz]; omega)
  rw [hz, Nat.zero_add] at h3 h4
  refine ⟨?_, h3, h4⟩
  rw [netSteps, planned_net (circ_planned c g) n .init _ 0 (fun d hd => by cases hd), ← walk_sum]
  refine Finset.sum_congr rfl fun j hj => ?_
  have := Finset.mem_range.1 hj
  rw [hz, Nat.zero_add]
  simp only [CircGen.dirAt, if_true]
  rw [if_neg (by omega), ← helper_walk (side := g.sideA) (j + 1) h1 h2 hd (by omega)]
  push_cast
  rfl

theorem axisB_ne (p : Plane) : axisB p ≠ axisA p := by cases p <;> decide
theorem axis3_ne_a (p : Plane) : axis3 p ≠ axisA p := by cases p <;> decide
theorem axis3_ne_b (p : Plane) : axis3 p ≠ axisB p := by cases p <;> decide
theorem axisE_ne_a (p : Plane) : Axis.e ≠ axisA p := by cases p <;> decide
theorem axisE_ne_b (p : Plane) : Axis.e ≠ axisB p := by cases p <;> decide
theorem axisE_ne_3 (p : Plane) : Axis.e ≠ axis3 p := by cases p <;> decide

/-- The same for the second axis. -/
theorem circ_run_b (c : Cfg) (g : CircGen F) (n : Nat) (h1 : -g.radiusBP ≤ g.startBP)
    (h2 : g.startBP ≤ g.radiusBP) (hd : g.dirB = 1 ∨ g.dirB = -1) (hit : g.itB ≤ 4 * g.radiusBP) :
    netSteps c (axisB g.plane) ((Gen.circular g).run c n .init).1 =
      (walk g.radiusBP g.startBP g.dirB
        (steps (axisB g.plane) ((Gen.circular g).run c n .init).1)).1 - g.startBP ∧
    steps (axisB g.plane) ((Gen.circular g).run c n .init).1 ≤ g.itB.toNat ∧
    (((Gen.circular g).run c n .init).2 = .done →
      steps (axisB g.plane) ((Gen.circular g).run c n .init).1 = g.itB.toNat) := by
  have hz : GenState.init.it.get (axisB g.plane) = 0 := by cases g.plane <;> rfl
  have hne := axisB_ne g.plane
  obtain ⟨h3, h4⟩ := planned_steps (circ_planned c g) (axisB g.plane) g.itB.toNat
    (fun i => by simp only [CircGen.firesAt, if_neg hne, if_true, decide_eq_true_eq]; omega) n .init
    (by rw [hz]; omega)
  rw [hz, Nat.zero_add] at h3 h4
  refine ⟨?_, h3, h4⟩
  rw [netSteps, planned_net (circ_planned c g) n .init _ 0 (fun d hd => by cases hd), ← walk_sum]
  refine Finset.sum_congr rfl fun j hj => ?_
  have := Finset.mem_range.1 hj
  rw [hz, Nat.zero_add]
  simp only [CircGen.dirAt, if_neg hne, if_true]
  rw [if_neg (by omega), ← helper_walk (side := g.sideB) (j + 1) h1 h2 hd (by omega)]
  push_cast
  rfl

/-- Net steps of the axis across the plane. -/
theorem circ_run_3 (c : Cfg) (g : CircGen F) (n : Nat) :
    netSteps c (axis3 g.plane) ((Gen.circular g).run c n .init).1 =
      g.dir3 * steps (axis3 g.plane) ((Gen.circular g).run c n .init).1 := by
  rw [netSteps, planned_net (circ_planned c g) n .init _ 0 (fun d hd => by cases hd)]
  simp only [CircGen.dirAt, if_neg (axis3_ne_a g.plane), if_neg (axis3_ne_b g.plane), if_true,
    Finset.sum_const, Finset.card_range]
  rw [nsmul_eq_mul, mul_comm]

/-- Net steps of the extruder. -/
theorem circ_run_e (c : Cfg) (g : CircGen F) (n : Nat) :
    netSteps c .e ((Gen.circular g).run c n .init).1 =
      g.dirE * steps .e ((Gen.circular g).run c n .init).1 := by
  rw [netSteps, planned_net (circ_planned c g) n .init _ 0 (fun d hd => by cases hd)]
  simp only [CircGen.dirAt, if_neg (axisE_ne_a g.plane), if_neg (axisE_ne_b g.plane),
    if_neg (axisE_ne_3 g.plane), Finset.sum_const, Finset.card_range]
  rw [nsmul_eq_mul, mul_comm]

/-- The pulses of the axis across the plane, when they stop after `total`. -/
theorem circ_steps_3 (c : Cfg) (g : CircGen F) (n total : Nat)
    (hf : ∀ i : Nat, (g.it3 ≤ₚ ofInt i) = false ↔ i < total) :
    steps (axis3 g.plane) ((Gen.circular g).run c n .init).1 ≤ total ∧
    (((Gen.circular g).run c n .init).2 = .done →
      steps (axis3 g.plane) ((Gen.circular g).run c n .init).1 = total) := by
  have hz : GenState.init.it.get (axis3 g.plane) = 0 := by cases g.plane <;> rfl
  obtain ⟨h3, h4⟩ := planned_steps (circ_planned c g) (axis3 g.plane) total
    (fun i => by simp only [CircGen.firesAt, if_neg (axis3_ne_a g.plane),
      if_neg (axis3_ne_b g.plane), if_true, ← hf i, Bool.not_eq_true']) n .init
    (by rw [hz]; omega)
  rw [hz, Nat.zero_add] at h3 h4
  exact ⟨h3, h4⟩

/-- The pulses of the extruder, when they stop after `total`. -/
theorem circ_steps_e (c : Cfg) (g : CircGen F) (n total : Nat)
    (hf : ∀ i : Nat, (g.itE ≤ₚ ofInt i) = false ↔ i < total) :
    steps .e ((Gen.circular g).run c n .init).1 ≤ total ∧
    (((Gen.circular g).run c n .init).2 = .done →
      steps .e ((Gen.circular g).run c n .init).1 = total) := by
  have hz : GenState.init.it.get .e = 0 := rfl
  obtain ⟨h3, h4⟩ := planned_steps (circ_planned c g) .e total
    (fun i => by simp only [CircGen.firesAt, if_neg (axisE_ne_a g.plane),
      if_neg (axisE_ne_b g.plane), if_neg (axisE_ne_3 g.plane), ← hf i, Bool.not_eq_true']) n .init
    (by rw [hz]; omega)
  rw [hz, Nat.zero_add] at h3 h4
  exact ⟨h3, h4⟩

end Circ

end PyCNC
