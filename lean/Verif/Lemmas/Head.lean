import Verif.Lemmas.HistoryMoves
import Verif.Lemmas.ArcNet
import Verif.Lemmas.ArcMachine
import Verif.Spec.Head

/-!
# Pulses of a history of moves
-/

set_option linter.unusedSectionVars false

namespace PyCNC

open Spec

section Any

variable {F : Type} [PyNum F] {c : Cfg}

/-- The direction after a pulse train. -/
def lastDir (c : Cfg) (ax : Axis) : Int → List (Event F) → Int
  | d, [] => d
  | _, .dir v :: r => lastDir c ax (if c.inverted.get ax then - v.get ax else v.get ax) r
  | d, .pulse _ :: r => lastDir c ax d r

theorem netFrom_append (ax : Axis) (d : Int) (a b : List (Event F)) :
    netFrom c ax d (a ++ b) = netFrom c ax d a + netFrom c ax (lastDir c ax d a) b := by
  induction a generalizing d with
  | nil => simp [netFrom, lastDir]
  | cons ev a ih =>
    cases ev with
    | dir v => rw [List.cons_append, netFrom, ih, netFrom, lastDir]
    | pulse t => rw [List.cons_append, netFrom, ih, netFrom, lastDir]; ring

/-- A pulse train that starts with an announcement of directions, or is empty. -/
def Announced (evs : List (Event F)) : Prop := evs = [] ∨ ∃ d r, evs = .dir d :: r

theorem netFrom_announced {b : List (Event F)} (h : Announced b) (ax : Axis) (d : Int) :
    netFrom c ax d b = netSteps c ax b := by
  rcases h with rfl | ⟨v, r, rfl⟩ <;> rfl

theorem netSteps_append {b : List (Event F)} (h : Announced b) (ax : Axis) (a : List (Event F)) :
    netSteps c ax (a ++ b) = netSteps c ax a + netSteps c ax b := by
  unfold netSteps
  rw [netFrom_append, netFrom_announced h]
  rfl

theorem run_announced (g : Gen F) (n : Nat) : Announced (g.run c n .init).1 := by
  cases n with
  | zero => exact .inl rfl
  | succ n =>
    rcases run_succ c g n .init with ⟨e, _, h⟩ | ⟨_, h⟩ | ⟨ev, s', h1, h⟩ <;> rw [h]
    · exact .inl rfl
    · exact .inl rfl
    · rcases next_cases c g .init with ⟨e, _, h2⟩ | ⟨d, t, hi, h2⟩
      · rw [h1] at h2; cases h2
      rcases h2 with ⟨hd, h2⟩ | ⟨hd, _⟩ | ⟨m, hd, _⟩
      · rw [h1] at h2; cases h2
        exact .inr ⟨_, _, rfl⟩
      all_goals cases hd

theorem emits_prefix {g : Gen F} {evs pre : List (Event F)} (h : Emits c g evs) (hp : pre <+: evs) :
    ∃ n, (g.run c n .init).1 = pre := by
  obtain ⟨N, hN⟩ := h
  have h1 := hN N le_rfl
  obtain ⟨m, rfl⟩ : ∃ m, pre = evs.take m := ⟨pre.length, (List.prefix_iff_eq_take.1 hp)⟩
  refine ⟨min m N, ?_⟩
  rw [run_take c g N .init _ (min_le_right _ _), h1]
  rcases le_total m N with hm | hm
  · rw [min_eq_left hm]
  · rw [min_eq_right hm]
    have : evs.length ≤ N := by
      have := run_take c g N .init N le_rfl
      rw [h1] at this
      have h2 := List.length_take_le N evs
      rw [← (show evs = List.take N evs from this)] at h2
      exact h2
    rw [List.take_of_length_le this, List.take_of_length_le (this.trans hm)]

theorem emits_announced {g : Gen F} {evs pre : List (Event F)} (h : Emits c g evs)
    (hp : pre <+: evs) : Announced pre := by
  obtain ⟨n, rfl⟩ := emits_prefix h hp
  exact run_announced g n

end Any

variable [PyRound] {c : Cfg}

/-- An axis of a linear move goes straight to its end. -/
theorem linear_train {delta : V4 ℝ} {v : ℝ} {g : LinearGen ℝ} (hd : GridV delta)
    (hg : LinearGen.new c delta v = .ok g)
    {evs : List (Event ℝ)} (he : Emits c (.linear g) evs) {ax : Axis} (hp : 0 < c.ppm.get ax) {n : ℤ}
    (hn : |delta.get ax * c.ppm.get ax - n| < 1 / 2) :
    netSteps c ax evs = n ∧ ∀ pre, pre <+: evs →
      min 0 n ≤ netSteps c ax pre ∧ netSteps c ax pre ≤ max 0 n := by
  obtain ⟨htot, hdir⟩ := linear_new_total hg ax
  have hP : (0 : ℝ) < c.ppm.get ax := by exact_mod_cast hp
  rw [get_abs_grid hd, roundI_eq, mul_eq, ofRat_eq] at htot
  rw [sign1_eq] at hdir
  have htn : g.dir.get ax * g.total.get ax = n ∧ 0 ≤ g.total.get ax ∧
      (g.dir.get ax = 1 ∨ g.dir.get ax = -1) := by
    rw [htot, hdir]
    generalize delta.get ax = x at *
    generalize (c.ppm.get ax : ℝ) = P at *
    rw [abs_lt] at hn
    by_cases hx : x < 0
    · have : PyRound.rnd (|x| * P) = -n := rnd_unique (by
        rw [abs_of_neg hx, abs_lt]; push_cast; constructor <;> linarith)
      rw [if_pos hx, this]
      refine ⟨by ring, ?_, .inr rfl⟩
      have h1 : x * P < 0 := mul_neg_of_neg_of_pos hx hP
      have : (n : ℝ) < 1 := by linarith
      have : n < 1 := by exact_mod_cast this
      omega
    · have : PyRound.rnd (|x| * P) = n := rnd_unique (by
        rw [abs_of_nonneg (not_lt.1 hx), abs_lt]; constructor <;> linarith)
      rw [if_neg hx, this]
      refine ⟨by ring, ?_, .inl rfl⟩
      have h1 : 0 ≤ x * P := mul_nonneg (not_lt.1 hx) hP.le
      have : (-1 : ℝ) < n := by linarith
      have : -1 < n := by exact_mod_cast this
      omega
  obtain ⟨hn', h0, hs⟩ := htn
  have key : ∀ m, min 0 n ≤ netSteps c ax ((Gen.linear g).run c m .init).1 ∧
      netSteps c ax ((Gen.linear g).run c m .init).1 ≤ max 0 n ∧
      (((Gen.linear g).run c m .init).2 = .done →
        netSteps c ax ((Gen.linear g).run c m .init).1 = n) := by
    intro m
    have hz : GenState.init.it.get ax = 0 := by cases ax <;> rfl
    obtain ⟨h1, h2⟩ := linear_run_steps c g m .init ax (by rw [hz]; omega)
    rw [hz, Nat.zero_add] at h1 h2
    rw [linear_run_net c g m ax]
    generalize steps ax ((Gen.linear g).run c m .init).1 = k at *
    rcases hs with hs | hs <;> rw [hs] at hn' ⊢
    · refine ⟨by omega, by omega, fun hd => ?_⟩
      have := h2 hd; omega
    · refine ⟨by omega, by omega, fun hd => ?_⟩
      have := h2 hd; omega
  constructor
  · obtain ⟨N, hN⟩ := he
    have := (key N).2.2
    rw [hN N le_rfl] at this
    exact this rfl
  · intro pre hp
    obtain ⟨m, rfl⟩ := emits_prefix he hp
    exact ⟨(key m).1, (key m).2.1⟩

/-- The axes of the plane of an arc on steps stay on the circle. -/
theorem arc_train {delta radius : V4 ℝ} {plane : Plane} {v : ℝ} {rot : Rot} {g : CircGen ℝ}
    (h : GridArc c delta radius plane) (hg : CircGen.new c delta radius plane rot v = .ok g)
    (hb : ¬ BackInQuarter plane delta radius) {evs : List (Event ℝ)} (he : Emits c (.circular g) evs)
    {ax : Axis} (hax : ax = axisA plane ∨ ax = axisB plane) :
    (netSteps c ax evs : ℝ) = delta.get ax * c.ppm.get ax ∧
    ∃ R n : ℤ, R = PyRound.rnd (startDist plane radius * c.ppm.get ax) ∧
      radius.get ax * c.ppm.get ax = n ∧
      ∀ pre, pre <+: evs → n - R ≤ netSteps c ax pre ∧ netSteps c ax pre ≤ n + R := by
  have hnet := arc_net h hg he
  rw [if_neg hb, if_neg hb] at hnet
  obtain ⟨hpl, R, RB, A, B, EA, EB, hi, r1, r2, r3, r4, p1, p2, q1, q2, ht, oA, oB, i1, i2, -, -⟩ :=
    arc_gen h hg
  rcases hax with rfl | rfl
  · refine ⟨hnet.1, R, -A, q1.symm, ?_, fun pre hp => ?_⟩
    · have := hi.hA
      unfold startA at this
      push_cast; linarith
    · obtain ⟨m, rfl⟩ := emits_prefix he hp
      obtain ⟨a1, -, -⟩ := circ_run_a c g m (by rw [r1, r3]; exact hi.rA.1) (by rw [r1, r3]; exact hi.rA.2)
        oA (by rw [r1]; exact i1)
      rw [hpl, r1, r3] at a1
      have a2 := walk_range hi.rA.1 hi.rA.2 p1 oA (steps (axisA plane) ((Gen.circular g).run c m .init).1)
      omega
  · refine ⟨hnet.2, RB, -B, q2.symm, ?_, fun pre hp => ?_⟩
    · have := hi.hB
      unfold startB at this
      push_cast; linarith
    · obtain ⟨m, rfl⟩ := emits_prefix he hp
      obtain ⟨a1, -, -⟩ := circ_run_b c g m (by rw [r2, r4]; exact hi.rB.1) (by rw [r2, r4]; exact hi.rB.2)
        oB (by rw [r2]; exact i2)
      rw [hpl, r2, r4] at a1
      have a2 := walk_range hi.rB.1 hi.rB.2 p2 oB (steps (axisB plane) ((Gen.circular g).run c m .init).1)
      omega

/-- The axis across goes straight to its end. -/
theorem arc_train3 {delta radius : V4 ℝ} {plane : Plane} {v : ℝ} {rot : Rot} {g : CircGen ℝ}
    (hg : CircGen.new c delta radius plane rot v = .ok g) {evs : List (Event ℝ)}
    (he : Emits c (.circular g) evs) {n : ℤ} (hp : 0 < c.ppm.get (axis3 plane))
    (hn : delta.get (axis3 plane) * c.ppm.get (axis3 plane) = n) :
    netSteps c (axis3 plane) evs = n ∧ ∀ pre, pre <+: evs →
      min 0 n ≤ netSteps c (axis3 plane) pre ∧ netSteps c (axis3 plane) pre ≤ max 0 n := by
  obtain ⟨φs, φe, hf⟩ := new_facts hg
  have hP : (0 : ℝ) < c.ppm.get (axis3 plane) := by exact_mod_cast hp
  have hd3 : g.dir3 = if delta.get (axis3 plane) < 0 then -1 else 1 := by
    rw [hf.dir3, planeAxes_eq, sign1_eq]
  have hi3 : g.it3 = |delta.get (axis3 plane)| * c.ppm.get (axis3 plane) := by
    rw [hf.it3, planeAxes_eq, planeAxes_eq]; simp
  have hs : ⌈g.it3⌉₊ = n.natAbs ∧ (g.dir3 = 1 ∧ 0 ≤ n ∨ g.dir3 = -1 ∧ n ≤ 0) := by
    rw [hd3, hi3]
    generalize delta.get (axis3 plane) = x at *
    generalize (c.ppm.get (axis3 plane) : ℝ) = P at *
    by_cases hx : x < 0
    · have h1 : (n : ℝ) < 0 := by rw [← hn]; exact mul_neg_of_neg_of_pos hx hP
      have h1 : n < 0 := by exact_mod_cast h1
      have e : |x| * P = ((n.natAbs : ℕ) : ℝ) := by
        rw [abs_of_neg hx, Nat.cast_natAbs, Int.cast_abs, ← hn, abs_mul, abs_of_neg hx, abs_of_pos hP]
      rw [e, Nat.ceil_natCast, if_pos hx]
      exact ⟨rfl, .inr ⟨rfl, h1.le⟩⟩
    · have h1 : (0 : ℝ) ≤ n := by rw [← hn]; exact mul_nonneg (not_lt.1 hx) hP.le
      have h1 : 0 ≤ n := by exact_mod_cast h1
      have e : |x| * P = ((n.natAbs : ℕ) : ℝ) := by
        rw [Nat.cast_natAbs, Int.cast_abs, ← hn, abs_mul, abs_of_pos hP]
      rw [e, Nat.ceil_natCast, if_neg hx]
      exact ⟨rfl, .inl ⟨rfl, h1⟩⟩
  obtain ⟨hs, hdir⟩ := hs
  have key : ∀ m, min 0 n ≤ netSteps c (axis3 plane) ((Gen.circular g).run c m .init).1 ∧
      netSteps c (axis3 plane) ((Gen.circular g).run c m .init).1 ≤ max 0 n ∧
      (((Gen.circular g).run c m .init).2 = .done →
        netSteps c (axis3 plane) ((Gen.circular g).run c m .init).1 = n) := by
    intro m
    obtain ⟨h1, h2⟩ := circ_steps_3 c g m ⌈g.it3⌉₊ fun i => by
      rw [le_false_iff, ofInt_eq, Int.cast_natCast, Nat.lt_ceil]
    have h3 := circ_run_3 c g m
    rw [hf.plane_eq] at h1 h2 h3
    rw [h3]
    generalize steps (axis3 plane) ((Gen.circular g).run c m .init).1 = k at *
    rcases hdir with ⟨hd, h0⟩ | ⟨hd, h0⟩ <;> rw [hd]
    · refine ⟨by omega, by omega, fun hd => ?_⟩
      have := h2 hd; omega
    · refine ⟨by omega, by omega, fun hd => ?_⟩
      have := h2 hd; omega
  constructor
  · obtain ⟨N, hN⟩ := he
    have := (key N).2.2
    rw [hN N le_rfl] at this
    exact this rfl
  · intro pre hp
    obtain ⟨m, rfl⟩ := emits_prefix he hp
    exact ⟨(key m).1, (key m).2.1⟩

end PyCNC
