import Verif.Lemmas.Coordinates
import Verif.Lemmas.Binary64
import Verif.Spec.Numbers

/-!
# Properties C06, C07, C08: coordinates
-/

namespace PyCNC.Props

open PyCNC Spec

/-- **C06** (exact arithmetic). Sums and differences of decimal coordinates are exact. -/
theorem C06_exact_add_sub [PyRound] (a b : V4 ℝ) (ha : Decimal10 a) (hb : Decimal10 b) :
    (∀ ax, (Coord.add a b).get ax = a.get ax + b.get ax) ∧
    (∀ ax, (Coord.sub a b).get ax = a.get ax - b.get ax) ∧
    Decimal10 (Coord.add a b) ∧ Decimal10 (Coord.sub a b) ∧
    Coord.sub (Coord.add a b) b = a := by
  have ha' : GridV a := ha
  have hb' : GridV b := hb
  refine ⟨get_add_grid ha' hb', get_sub_grid ha' hb', gridV_add a b, gridV_sub a b, ?_⟩
  apply V4.ext_get
  intro ax
  rw [get_sub_grid (gridV_add a b) hb', get_add_grid ha' hb']
  ring

example : Decimal10 ⟨0.1, -3.25, 100, 1.0066666667⟩ := by
  intro ax
  cases ax
  · exact ⟨1000000000, by norm_num [V4.get]⟩
  · exact ⟨-32500000000, by norm_num [V4.get]⟩
  · exact ⟨1000000000000, by norm_num [V4.get]⟩
  · exact ⟨10066666667, by norm_num [V4.get]⟩

/-- **C06** (binary64). Sums and differences of decimal coordinates up to 100 000 mm are
exact: the result is the binary64 number nearest to the true decimal result. -/
theorem C06_binary64_add_sub [PyRound] (a b : V4 ℤ) (ha : InRange a) (hb : InRange b) :
    Coord.add (dec64 a) (dec64 b) = dec64 (addZ a b) ∧
    Coord.sub (dec64 a) (dec64 b) = dec64 (subZ a b) := by
  constructor
  · simp only [Coord.add, Coord.new, dec64, V4.map, addZ]
    rw [dec_add a.x b.x (ha .x) (hb .x), dec_add a.y b.y (ha .y) (hb .y), dec_add a.z b.z (ha .z) (hb .z),
      dec_add a.e b.e (ha .e) (hb .e)]
  · simp only [Coord.sub, Coord.new, dec64, V4.map, subZ]
    rw [dec_sub a.x b.x (ha .x) (hb .x), dec_sub a.y b.y (ha .y) (hb .y), dec_sub a.z b.z (ha .z) (hb .z),
      dec_sub a.e b.e (ha .e) (hb .e)]

/-- **C06** (binary64). Any number of moves accumulates no error as long as the moves and
the intermediate positions stay in range. -/
theorem C06_binary64_no_drift [PyRound] (p : V4 ℤ) (ms : List (V4 ℤ)) (hp : InRange p)
    (hm : ∀ m ∈ ms, InRange m)
    (hs : ∀ k ≤ ms.length, InRange ((ms.take k).foldl addZ p)) :
    (ms.map dec64).foldl Coord.add (dec64 p) = dec64 (ms.foldl addZ p) := by
  induction ms generalizing p with
  | nil => rfl
  | cons m ms ih =>
    simp only [List.map_cons, List.foldl_cons]
    rw [(C06_binary64_add_sub p m hp (hm m (by simp))).1]
    apply ih
    · have := hs 1 (by simp)
      simpa using this
    · exact fun m' h' => hm m' (by simp [h'])
    · intro k hk
      have := hs (k + 1) (by simp; omega)
      simpa using this

/-- Three moves of a third of a millimetre (in E, rounded to ten digits) satisfy the range
conditions. -/
example : ∀ k ≤ 3, InRange (([⟨0, 0, 0, 3333333333⟩, ⟨0, 0, 0, 3333333333⟩,
    ⟨100, 0, 0, 3333333333⟩] : List (V4 ℤ)).take k |>.foldl addZ ⟨0, 0, 0, 0⟩) := by
  intro k hk ax
  match k, hk with
  | 0, _ => cases ax <;> decide
  | 1, _ => cases ax <;> decide
  | 2, _ => cases ax <;> decide
  | 3, _ => cases ax <;> decide

/-- **C07.** `round` to a positive base: nearest multiple (to ten digits) on each axis. -/
theorem C07_nearest [PyRound] (v base : ℝ) (hb : 0 < base) :
    ∃ n : ℤ, PyNum.round10 (Coord.roundTo v base) = PyNum.round10 (n * base) ∧
      |n * base - v| ≤ base / 2 ∧
      |PyNum.round10 (Coord.roundTo v base) - v| ≤ base / 2 + 1 / 2 / 10 ^ 10 := by
  refine ⟨PyRound.rnd (v / base), by rw [roundTo_eq], ?_, ?_⟩
  · have h := PyRound.near (v / base)
    have : (PyRound.rnd (v / base) : ℝ) * base - v = ((PyRound.rnd (v / base) : ℝ) - v / base) * base := by
      rw [sub_mul, div_mul_cancel₀ _ hb.ne']
    rw [this, abs_mul, abs_of_pos hb]
    nlinarith
  · have h := PyRound.near (v / base)
    have h1 : |(PyRound.rnd (v / base) : ℝ) * base - v| ≤ base / 2 := by
      have : (PyRound.rnd (v / base) : ℝ) * base - v =
          ((PyRound.rnd (v / base) : ℝ) - v / base) * base := by
        rw [sub_mul, div_mul_cancel₀ _ hb.ne']
      rw [this, abs_mul, abs_of_pos hb]
      nlinarith
    have h2 := round10_near ((PyRound.rnd (v / base) : ℝ) * base)
    rw [roundTo_eq]
    have h3 := abs_add_le (PyNum.round10 ((PyRound.rnd (v / base) : ℝ) * base) -
      (PyRound.rnd (v / base) : ℝ) * base) ((PyRound.rnd (v / base) : ℝ) * base - v)
    rw [sub_add_sub_cancel] at h3
    rw [E10] at h2
    linarith

/-- **C07.** `round` leaves a step multiple (to ten digits) unchanged, so it is idempotent. -/
theorem C07_fixes_multiples [PyRound] (n : ℤ) (base : ℝ) (hb : 1 / 10 ^ 10 < base) :
    PyNum.round10 (Coord.roundTo (PyNum.round10 (n * base)) base) = PyNum.round10 (n * base) := by
  have hb0 : 0 < base := lt_trans (by positivity) hb
  have h : PyRound.rnd (PyNum.round10 ((n : ℝ) * base) / base) = n := by
    apply rnd_unique
    have h1 := round10_near ((n : ℝ) * base)
    have : PyNum.round10 ((n : ℝ) * base) / base - n =
        (PyNum.round10 ((n : ℝ) * base) - n * base) / base := by
      rw [sub_div, mul_div_assoc, div_self hb0.ne', mul_one]
    rw [this, abs_div, abs_of_pos hb0, div_lt_iff₀ hb0]
    rw [E10] at h1
    have : (1 : ℝ) / 2 / 10 ^ 10 < 1 / 2 * base := by
      have := mul_lt_mul_of_pos_left hb (by norm_num : (0 : ℝ) < 1 / 2)
      linarith
    linarith
  rw [roundTo_eq, h]

/-- **C07.** `round` is idempotent. -/
theorem C07_idempotent [PyRound] (v : V4 ℝ) (bx bY bz be : ℝ) (hx : 1 / 10 ^ 10 < bx)
    (hy : 1 / 10 ^ 10 < bY) (hz : 1 / 10 ^ 10 < bz) (he : 1 / 10 ^ 10 < be) :
    Coord.round (Coord.round v bx bY bz be) bx bY bz be = Coord.round v bx bY bz be := by
  simp only [Coord.round, Coord.new, V4.mk.injEq]
  simp only [roundTo_eq v.x, roundTo_eq v.y, roundTo_eq v.z, roundTo_eq v.e]
  exact ⟨C07_fixes_multiples _ _ hx, C07_fixes_multiples _ _ hy, C07_fixes_multiples _ _ hz,
    C07_fixes_multiples _ _ he⟩

/-- **C07.** `round` is monotone on each axis. -/
theorem C07_monotone [PyRound] (v w base : ℝ) (hb : 0 < base) (h : v ≤ w) :
    PyNum.round10 (Coord.roundTo v base) ≤ PyNum.round10 (Coord.roundTo w base) := by
  rw [roundTo_eq, roundTo_eq]
  apply round10_mono
  have : PyRound.rnd (v / base) ≤ PyRound.rnd (w / base) :=
    rnd_mono (div_le_div_of_nonneg_right h hb.le)
  exact mul_le_mul_of_nonneg_right (by exact_mod_cast this) hb.le

/-- The default step sizes satisfy the hypotheses. -/
example : (1 : ℝ) / 10 ^ 10 < 1 / 100 ∧ (1 : ℝ) / 10 ^ 10 < 1 / 400 ∧
    (1 : ℝ) / 10 ^ 10 < 1 / 150 := by norm_num

/-- **C08.** The table test is membership in the closed box spanned by the two corners, in
exact arithmetic and in binary64. -/
theorem C08_aabb_iff {F : Type} [PyNum F] [PyOrd F] (v p q : V4 F) :
    Coord.isInAabb v p q = true ↔
      (min (PyOrd.val p.x) (PyOrd.val q.x) ≤ PyOrd.val v.x ∧
        PyOrd.val v.x ≤ max (PyOrd.val p.x) (PyOrd.val q.x)) ∧
      (min (PyOrd.val p.y) (PyOrd.val q.y) ≤ PyOrd.val v.y ∧
        PyOrd.val v.y ≤ max (PyOrd.val p.y) (PyOrd.val q.y)) ∧
      (min (PyOrd.val p.z) (PyOrd.val q.z) ≤ PyOrd.val v.z ∧
        PyOrd.val v.z ≤ max (PyOrd.val p.z) (PyOrd.val q.z)) := by
  have hs : ∀ a b : F, PyOrd.val (Coord.sorted2 a b).1 = min (PyOrd.val a) (PyOrd.val b) ∧
      PyOrd.val (Coord.sorted2 a b).2 = max (PyOrd.val a) (PyOrd.val b) := by
    intro a b
    unfold Coord.sorted2
    by_cases h : PyOrd.val b < PyOrd.val a
    · rw [if_pos ((PyOrd.lt_val _ _).2 h)]
      exact ⟨(min_eq_right h.le).symm, (max_eq_left h.le).symm⟩
    · rw [if_neg (fun h' => h ((PyOrd.lt_val _ _).1 h'))]
      push Not at h
      exact ⟨(min_eq_left h).symm, (max_eq_right h).symm⟩
  simp only [Coord.isInAabb]
  rw [← (hs p.x q.x).1, ← (hs p.x q.x).2, ← (hs p.y q.y).1, ← (hs p.y q.y).2,
    ← (hs p.z q.z).1, ← (hs p.z q.z).2]
  by_cases h1 : (v.x <ₚ (Coord.sorted2 p.x q.x).1 || v.y <ₚ (Coord.sorted2 p.y q.y).1 ||
      v.z <ₚ (Coord.sorted2 p.z q.z).1) = true
  · rw [if_pos h1]
    simp only [Bool.or_eq_true, PyOrd.lt_val] at h1
    constructor
    · intro h; cases h
    · rintro ⟨⟨a, _⟩, ⟨b, _⟩, ⟨c, _⟩⟩
      rcases h1 with (h | h) | h <;> linarith
  · rw [if_neg h1]
    simp only [Bool.or_eq_true, PyOrd.lt_val] at h1
    push Not at h1
    by_cases h2 : ((Coord.sorted2 p.x q.x).2 <ₚ v.x || (Coord.sorted2 p.y q.y).2 <ₚ v.y ||
        (Coord.sorted2 p.z q.z).2 <ₚ v.z) = true
    · rw [if_pos h2]
      simp only [Bool.or_eq_true, PyOrd.lt_val] at h2
      constructor
      · intro h; cases h
      · rintro ⟨⟨_, a⟩, ⟨_, b⟩, ⟨_, c⟩⟩
        rcases h2 with (h | h) | h <;> linarith
    · rw [if_neg h2]
      simp only [Bool.or_eq_true, PyOrd.lt_val] at h2
      push Not at h2
      exact ⟨fun _ => ⟨⟨h1.1.1, h2.1.1⟩, ⟨h1.1.2, h2.1.2⟩, ⟨h1.2, h2.2⟩⟩, fun _ => rfl⟩

/-- A point on the border of the table is inside, one beyond it is not. -/
example [PyRound] : Coord.isInAabb (⟨200, 0, 100, 5⟩ : V4 ℝ) ⟨0, 200, 0, 0⟩ ⟨200, 0, 220, 0⟩ = true ∧
    Coord.isInAabb (⟨200.5, 0, 100, 5⟩ : V4 ℝ) ⟨0, 200, 0, 0⟩ ⟨200, 0, 220, 0⟩ = false := by
  constructor
  · rw [C08_aabb_iff]; norm_num [PyOrd.val]
  · rw [← Bool.not_eq_true, C08_aabb_iff]; norm_num [PyOrd.val]

end PyCNC.Props
