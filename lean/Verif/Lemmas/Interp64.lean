import Verif.Lemmas.Decimal64
import Verif.Spec.Interp64
import Verif.Props.Linear

/-!
# The machine in binary64 and the reference interpreter
-/

set_option linter.unusedSectionVars false

namespace PyCNC

open Spec

section anyF

variable {F : Type} [PyNum F]

/-- The value of a coordinate word, or the default. -/
theorem coordinates_okF {g : GCode} {dflt v : V4 F} {m : F} (h : g.coordinates dflt m = .ok v)
    (ax : Axis) :
    (∃ q, HasNum g (axisWord ax) q ∧ v.get ax = PyNum.round10 (PyNum.ofRat q *ₚ m)) ∨
    (g.params.lookup (axisWord ax) = none ∧ v.get ax = PyNum.round10 (dflt.get ax)) := by
  unfold GCode.coordinates at h
  obtain ⟨x, hx, h⟩ := bindE_ok h
  obtain ⟨y, hy, h⟩ := bindE_ok h
  obtain ⟨z, hz, h⟩ := bindE_ok h
  obtain ⟨e, he, h⟩ := bindE_ok h
  cases h
  have key : ∀ {k : Char} {d x : F}, g.get k d m = .ok x →
      (∃ q, HasNum g k q ∧ PyNum.round10 x = PyNum.round10 (PyNum.ofRat q *ₚ m)) ∨
      (g.params.lookup k = none ∧ PyNum.round10 x = PyNum.round10 d) := by
    intro k d x h
    rcases get_ok h with ⟨q, hq, rfl⟩ | ⟨hn, rfl⟩
    · exact .inl ⟨q, hq, rfl⟩
    · exact .inr ⟨hn, rfl⟩
  cases ax
  · exact key hx
  · exact key hy
  · exact key hz
  · exact key he

theorem get_addF (a b : V4 F) (ax : Axis) :
    (Coord.add a b).get ax = PyNum.round10 (a.get ax +ₚ b.get ax) := by cases ax <;> rfl

theorem get_subF (a b : V4 F) (ax : Axis) :
    (Coord.sub a b).get ax = PyNum.round10 (a.get ax -ₚ b.get ax) := by cases ax <;> rfl

theorem get_zeroF (ax : Axis) : (Coord.zero : V4 F).get ax = PyNum.round10 zeroF := by
  cases ax <;> rfl

theorem get_roundToStepsF (c : Cfg) (d : V4 F) (ax : Axis) : (roundToSteps c d).get ax =
    PyNum.round10 (Coord.roundTo (d.get ax) (PyNum.ofRat 1 /ₚ PyNum.ofRat (c.ppm.get ax))) := by
  cases ax <;> rfl

end anyF

variable [PyRound] {c : Cfg} {env : Env F64}

theorem grid_zero : Grid (0 : ℝ) := Grid.zero

theorem of_round10_zero : (PyNum.round10 (zeroF : F64)) = F64.of 0 := by
  rw [← of_zero, round10_of64 grid_zero (by norm_num)]

/-- What holds of the states of the interpreter in between lines. -/
structure RefOk (c : Cfg) (r : Ref) : Prop where
  table : StepsOnTable c r.steps
  extruded : Grid r.extruded
  origin : ∀ ax, Grid (r.origin ax) ∧ |r.origin ax| ≤ 5 * 10 ^ 4
  unit : r.unit = 1 ∨ r.unit = 25.4
  feed : Grid r.feed

theorem tableSize_le (hc : SaneMachine c) (ax : Axis) :
    (0 : ℝ) ≤ tableSize c ax ∧ (tableSize c ax : ℝ) ≤ 10 ^ 4 ∧ Grid (tableSize c ax : ℝ) := by
  obtain ⟨⟨hx0, hx⟩, ⟨hy0, hy⟩, ⟨hz0, hz⟩⟩ := hc.table
  cases ax
  · exact ⟨by exact_mod_cast hx0, by exact_mod_cast hc.sizeX, decimalQ_grid hx⟩
  · exact ⟨by exact_mod_cast hy0, by exact_mod_cast hc.sizeY, decimalQ_grid hy⟩
  · exact ⟨by exact_mod_cast hz0, by exact_mod_cast hc.sizeZ, decimalQ_grid hz⟩
  · simp only [tableSize]
    exact ⟨by norm_num, by norm_num, by simpa using Grid.zero⟩

/-- Where an axis can be. -/
theorem refOk_at (hc : FloatMachine c) {r : Ref} (ho : RefOk c r) (he : |r.extruded| ≤ 3 * 10 ^ 4)
    (ax : Axis) : Grid (r.at c ax) ∧ |r.at c ax| ≤ 3 * 10 ^ 4 ∧ (ax ≠ .e → |r.at c ax| ≤ 10 ^ 4) := by
  by_cases hax : ax = .e
  · subst hax
    exact ⟨ho.extruded, he, fun h => absurd rfl h⟩
  · rw [at_steps hax]
    have hP : (0 : ℝ) < c.ppm.get ax := by exact_mod_cast hc.plain.sane.cfg.ppm_pos ax
    obtain ⟨h1, h2⟩ := ho.table ax hax
    have h1' : (0 : ℝ) ≤ r.steps ax := by exact_mod_cast h1
    have h3 : |(r.steps ax : ℝ) / c.ppm.get ax| ≤ 10 ^ 4 := by
      rw [abs_div, abs_of_pos hP, div_le_iff₀ hP, abs_of_nonneg h1']
      exact h2.trans (mul_le_mul_of_nonneg_right (tableSize_le hc.plain.sane ax).2.1 hP.le)
    exact ⟨(decimalStep_ppm (hc.plain.step ax hax)).2 _, h3.trans (by norm_num), fun _ => h3⟩

/-- The programmed displacement. -/
theorem readDelta64 (hc : FloatMachine c) {s : MState F64} {r : Ref} (ho : RefOk c r)
    (he : |r.extruded| ≤ 3 * 10 ^ 4) (hm : Matches64 c s r) {g : GCode} {d : V4 F64}
    (hd : readDelta s g = .ok d) {w : Axis → Option ℚ} (hw : Words g w)
    (hs : ∀ ax q, w ax = some q → SmallWord r q) (ax : Axis) :
    d.get ax = F64.of (r.dist c w ax) ∧ Grid (r.dist c w ax) ∧ |r.dist c w ax| ≤ 10 ^ 5 ∧
      (ax ≠ .e → |r.dist c w ax| ≤ 8 * 10 ^ 4) := by
  obtain ⟨w1, w2⟩ := word_iff (hw ax)
  obtain ⟨ga, ba, ba'⟩ := refOk_at hc ho he ax
  obtain ⟨go, bo⟩ := ho.origin ax
  unfold readDelta at hd
  rw [hm.mode] at hd
  unfold Ref.dist
  cases hr : r.relative
  · rw [hr] at hd
    simp only [Bool.not_false, if_true] at hd
    obtain ⟨co, hco, hd⟩ := bindE_ok hd
    cases hd
    rw [get_subF, get_addF, hm.pos, hm.loc]
    rcases coordinates_okF hco ax with ⟨q, hq, h⟩ | ⟨hn, h⟩
    · have hq' := (w1 q).1 hq
      obtain ⟨n9, bq⟩ := hs ax q hq'
      obtain ⟨gq, hq2⟩ := word64 n9 ho.unit (bq.trans (by norm_num))
      rw [hq', h, hm.conv, hq2]
      simp only [Bool.false_eq_true, if_false]
      have b1 : |(q : ℝ) * r.unit + r.origin ax| ≤ 7 * 10 ^ 4 :=
        (abs_add_le _ _).trans (by linarith)
      rw [add64 gq go (bq.trans (by norm_num)) (bo.trans (by norm_num)),
        sub64 (gq.add go) ga (b1.trans (by norm_num)) (ba.trans (by norm_num))]
      have e : (q : ℝ) * r.unit + r.origin ax - r.at c ax = r.origin ax + q * r.unit - r.at c ax := by
        ring
      rw [← e]
      refine ⟨rfl, (gq.add go).sub ga, (abs_sub _ _).trans (by linarith), fun hax => ?_⟩
      have := ba' hax
      exact (abs_sub _ _).trans (by linarith)
    · have b1 : |r.at c ax - r.origin ax| ≤ 8 * 10 ^ 4 := (abs_sub _ _).trans (by linarith)
      rw [w2.1 hn, h, get_subF, hm.pos, hm.loc,
        sub64 ga go (ba.trans (by norm_num)) (bo.trans (by norm_num)),
        round10_of64 (ga.sub go) (b1.trans (by norm_num)),
        add64 (ga.sub go) go (b1.trans (by norm_num)) (bo.trans (by norm_num)), sub_add_cancel,
        sub64 ga ga (ba.trans (by norm_num)) (ba.trans (by norm_num)), sub_self]
      simp only
      exact ⟨trivial, grid_zero, by norm_num, fun _ => by norm_num⟩
  · rw [hr] at hd
    simp only [Bool.not_true, Bool.false_eq_true, if_false] at hd
    rcases coordinates_okF hd ax with ⟨q, hq, h⟩ | ⟨hn, h⟩
    · have hq' := (w1 q).1 hq
      obtain ⟨n9, bq⟩ := hs ax q hq'
      obtain ⟨gq, hq2⟩ := word64 n9 ho.unit (bq.trans (by norm_num))
      rw [hq', h, hm.conv, hq2]
      simp only [if_true]
      exact ⟨trivial, gq, bq.trans (by norm_num), fun _ => bq.trans (by norm_num)⟩
    · rw [w2.1 hn, h, get_zeroF, of_round10_zero, round10_of64 grid_zero (by norm_num)]
      simp only
      exact ⟨trivial, grid_zero, by norm_num, fun _ => by norm_num⟩

/-- The displacement in steps, as a decimal number. -/
theorem move_dec64 (hc : FloatMachine c) {r : Ref} {w : Axis → Option ℚ} {d : V4 F64} {ax : Axis}
    (hd : d.get ax = F64.of (r.dist c w ax)) (hb : |r.dist c w ax| ≤ 10 ^ 5)
    (ht : |r.dist c w ax * c.ppm.get ax - r.go c w ax| ≤ 1 / 2 - 1 / 10 ^ 6)
    (he : (|r.go c w .e| : ℝ) ≤ 9999 * c.ppm.e) :
    (roundToSteps c d).get ax = F64.of (dec ((r.go c w ax : ℝ) / c.ppm.get ax)) ∧
    |(r.go c w ax : ℝ) / c.ppm.get ax| ≤ |r.dist c w ax| + 1 := by
  have hP : (0 : ℝ) < c.ppm.get ax := by exact_mod_cast hc.plain.sane.cfg.ppm_pos ax
  have hP1 : (1 : ℝ) ≤ c.ppm.get ax := by exact_mod_cast hc.ppm ax
  have hgo : |(r.go c w ax : ℝ) / c.ppm.get ax| ≤ |r.dist c w ax| + 1 := by
    have e : (r.go c w ax : ℝ) / c.ppm.get ax =
        r.dist c w ax - (r.dist c w ax * c.ppm.get ax - r.go c w ax) / c.ppm.get ax := by
      field_simp; ring
    rw [e]
    refine (abs_sub _ _).trans (add_le_add le_rfl ?_)
    rw [abs_div, abs_of_pos hP, div_le_iff₀ hP]
    have : (1 : ℝ) / 2 - 1 / 10 ^ 6 ≤ 1 := by norm_num
    linarith
  refine ⟨?_, hgo⟩
  have hg : Grid (dec ((r.go c w ax : ℝ) / c.ppm.get ax)) := by
    rw [← round10_dec]; exact grid_round10 _
  rw [get_roundToStepsF, hd]
  refine roundTo_exact64 (hc.plain.sane.cfg.ppm_pos ax) (hc.plain.sane.cfg.ppm_le ax) hb ht hg ?_
  by_cases hax : ax = .e
  · subst hax
    obtain ⟨k, hk⟩ := hc.stepE (r.go c w .e)
    simp only [V4.get] at *
    have h1 : PyRound.rnd ((r.go c w .e : ℝ) / c.ppm.e * 10 ^ 10) = k :=
      rnd_unique (lt_of_le_of_lt hk (by norm_num))
    have h2 : |dec ((r.go c w .e : ℝ) / c.ppm.e) - (r.go c w .e : ℝ) / c.ppm.e| ≤ 2 / 5 / 10 ^ 10 := by
      unfold dec
      rw [h1]
      have e : (k : ℝ) / 10 ^ 10 - (r.go c w .e : ℝ) / c.ppm.e =
        -(((r.go c w .e : ℝ) / c.ppm.e * 10 ^ 10 - k) / 10 ^ 10) := by field_simp; ring
      rw [e, abs_neg, abs_div, abs_of_pos (by norm_num : (0 : ℝ) < 10 ^ 10)]
      gcongr
    have h3 : |(r.go c w .e : ℝ) / c.ppm.e| ≤ 9999 := by
      rw [abs_div, abs_of_pos hP, div_le_iff₀ hP]
      exact_mod_cast he
    have h4 := mul_le_mul_of_nonneg_right h3 (by norm_num : (0 : ℝ) ≤ 35 / 10 ^ 17)
    refine lt_of_le_of_lt (add_le_add h2 h4) (by norm_num)
  · have hgr := (decimalStep_ppm (hc.plain.step ax hax)).2 (r.go c w ax)
    rw [← round10_dec, round10_grid hgr, sub_self, abs_zero, zero_add]
    have h3 := hgo.trans (add_le_add hb le_rfl)
    have h4 := mul_le_mul_of_nonneg_right h3 (by norm_num : (0 : ℝ) ≤ 35 / 10 ^ 17)
    refine lt_of_le_of_lt h4 (by norm_num)

/-- The area check. -/
theorem checkDelta64 (hc : SaneMachine c) {p d : V4 F64} {a b : Axis → ℝ}
    (hp : ∀ ax, p.get ax = F64.of (a ax)) (hd : ∀ ax, d.get ax = F64.of (b ax))
    (ha : ∀ ax, ax ≠ .e → Grid (a ax) ∧ |a ax| ≤ 10 ^ 4)
    (hb : ∀ ax, ax ≠ .e → Grid (b ax) ∧ |b ax| ≤ 8 * 10 ^ 4 + 1) :
    (checkDelta c p d = .ok () ↔
      ∀ ax, ax ≠ .e → 0 ≤ a ax + b ax ∧ a ax + b ax ≤ tableSize c ax) ∧
    ∀ e, checkDelta c p d = .error e → Reported e := by
  have hsum : ∀ ax, ax ≠ .e → PyNum.round10 (p.get ax +ₚ d.get ax) = F64.of (a ax + b ax) ∧
      Grid (a ax + b ax) ∧ |a ax + b ax| ≤ 10 ^ 5 := by
    intro ax hax
    obtain ⟨ga, ba⟩ := ha ax hax
    obtain ⟨gb, bb⟩ := hb ax hax
    rw [hp, hd]
    refine ⟨add64 ga gb (ba.trans (by norm_num)) (bb.trans (by norm_num)), ga.add gb,
      (abs_add_le _ _).trans ?_⟩
    linarith
  have htab : ∀ ax, PyNum.round10 (F64.of (tableSize c ax)) = F64.of (tableSize c ax) := by
    intro ax
    obtain ⟨t0, t1, t2⟩ := tableSize_le hc ax
    exact round10_of64 t2 (by rw [abs_of_nonneg t0]; exact t1.trans (by norm_num))
  have hlo : ∀ ax, ax ≠ .e → ((F64.of (a ax + b ax) <ₚ F64.of 0) = true ↔ a ax + b ax < 0) :=
    fun ax hax => lt_of64 (hsum ax hax).2.1 grid_zero (hsum ax hax).2.2 (by norm_num)
  have hhi : ∀ ax, ax ≠ .e → ((F64.of (tableSize c ax : ℝ) <ₚ F64.of (a ax + b ax)) = true ↔
      (tableSize c ax : ℝ) < a ax + b ax) := by
    intro ax hax
    obtain ⟨t0, t1, t2⟩ := tableSize_le hc ax
    exact lt_of64 t2 (hsum ax hax).2.1 (by rw [abs_of_nonneg t0]; exact t1.trans (by norm_num))
      (hsum ax hax).2.2
  have s2 : ∀ ax, Coord.sorted2 (F64.of 0) (F64.of (tableSize c ax)) =
      (F64.of 0, F64.of (tableSize c ax)) := by
    intro ax
    obtain ⟨t0, t1, t2⟩ := tableSize_le hc ax
    unfold Coord.sorted2
    rw [if_neg]
    rw [lt_of64 t2 grid_zero (by rw [abs_of_nonneg t0]; exact t1.trans (by norm_num)) (by norm_num)]
    exact not_lt.2 t0
  have ex := (hsum .x (by decide)).1
  have ey := (hsum .y (by decide)).1
  have ez := (hsum .z (by decide)).1
  have tx := htab .x
  have ty := htab .y
  have tz := htab .z
  have sx := s2 .x
  have sy := s2 .y
  have sz := s2 .z
  simp only [V4.get, tableSize] at ex ey ez tx ty tz sx sy sz
  have e1 : ∀ q : ℚ, (PyNum.ofRat q : F64) = F64.of (q : ℝ) := fun q => rfl
  have key : Coord.isInAabb (Coord.add p d) Coord.zero
      (Coord.new (PyNum.ofRat c.tableX) (PyNum.ofRat c.tableY) (PyNum.ofRat c.tableZ) zeroF) = true ↔
      ∀ ax, ax ≠ .e → 0 ≤ a ax + b ax ∧ a ax + b ax ≤ tableSize c ax := by
    unfold Coord.isInAabb
    simp only [Coord.add, Coord.new, Coord.zero, e1, of_round10_zero, ex, ey, ez, tx, ty, tz, sx, sy, sz]
    have lx := hlo .x (by decide)
    have ly := hlo .y (by decide)
    have lz := hlo .z (by decide)
    have hx := hhi .x (by decide)
    have hy := hhi .y (by decide)
    have hz := hhi .z (by decide)
    simp only [tableSize] at hx hy hz
    rw [show (∀ ax, ax ≠ Axis.e → 0 ≤ a ax + b ax ∧ a ax + b ax ≤ tableSize c ax) ↔
      (0 ≤ a .x + b .x ∧ a .x + b .x ≤ tableSize c .x) ∧ (0 ≤ a .y + b .y ∧ a .y + b .y ≤ tableSize c .y) ∧
      (0 ≤ a .z + b .z ∧ a .z + b .z ≤ tableSize c .z) from
      ⟨fun h => ⟨h .x (by decide), h .y (by decide), h .z (by decide)⟩, fun h ax hax => by
        cases ax
        exacts [h.1, h.2.1, h.2.2, absurd rfl hax]⟩]
    simp only [tableSize]
    split
    · rename_i h
      simp only [Bool.or_eq_true, lx, ly, lz] at h
      refine ⟨fun h' => by simp at h', fun h' => ?_⟩
      rcases h with (h | h) | h <;> linarith [h'.1.1, h'.2.1.1, h'.2.2.1]
    · rename_i h0
      simp only [Bool.or_eq_true, lx, ly, lz, not_or, not_lt] at h0
      split
      · rename_i h
        simp only [Bool.or_eq_true, hx, hy, hz] at h
        refine ⟨fun h' => by simp at h', fun h' => ?_⟩
        rcases h with (h | h) | h <;> linarith [h'.1.2, h'.2.1.2, h'.2.2.2]
      · rename_i h
        simp only [Bool.or_eq_true, hx, hy, hz, not_or, not_lt] at h
        exact ⟨fun _ => ⟨⟨h0.1.1, h.1.1⟩, ⟨h0.1.2, h.1.2⟩, ⟨h0.2, h.2⟩⟩, fun _ => rfl⟩
  unfold checkDelta
  refine ⟨?_, fun e h => ?_⟩
  · rw [← key]
    split
    · rename_i h; exact ⟨fun _ => h, fun _ => rfl⟩
    · rename_i h; exact ⟨fun h' => by simp at h', fun h' => absurd h' h⟩
  · split at h
    · cases h
    · cases h; trivial

/-- The velocity check never refuses an adjusted move. -/
theorem checkVelocity64 (hc : SaneCfg c) (hd : DecimalLimits c)
    (hf : ∀ ax, c.maxVel.get ax ≤ 60000) {g : LinearGen F64}
    (h : ∀ ax, (g.maxV.get ax).1 ≤ fl (c.maxVel.get ax / 60)) :
    checkVelocity c (Gen.linear g).maxVelocity = .ok () := by
  have key : ∀ ax, ((Gen.linear g).maxVelocity.get ax).1 ≤ fl (c.maxVel.get ax) := by
    intro ax
    unfold Gen.maxVelocity
    rw [get_smul64]
    obtain ⟨k, hk⟩ := hd ax
    have hM : (60 : ℝ) ≤ c.maxVel.get ax := by exact_mod_cast hc.maxVel ax
    have hM2 : (c.maxVel.get ax : ℝ) ≤ 60000 := by exact_mod_cast hf ax
    have e : (c.maxVel.get ax : ℝ) = ((60 * k : ℤ) : ℝ) / 10 ^ 10 := by
      push_cast
      rw [mul_div_assoc, ← hk]; ring
    have hw := h ax
    have key : (g.maxV.get ax *ₚ secInMin).1 ≤ c.maxVel.get ax + 1 / (4 * 10 ^ 10) := by
      rw [val_mul, sec64]
      generalize (c.maxVel.get ax : ℝ) = M at *
      have h1 := fl_hi2 (show 0 ≤ M / 60 by linarith)
      have h2 : (g.maxV.get ax).1 * 60 ≤ M * (1 + 2 / 10 ^ 16) := by linarith
      have h3 := fl_mono h2
      have h4 := fl_hi2 (show 0 ≤ M * (1 + 2 / 10 ^ 16) by positivity)
      generalize fl (M * (1 + 2 / 10 ^ 16)) = A at *
      generalize fl ((g.maxV.get ax).1 * 60) = B at *
      norm_num at *
      linarith
    rw [e] at key ⊢
    exact r10_le64 key
  unfold checkVelocity
  rw [if_neg]
  simp only [Bool.or_eq_true, lt64_iff, val_ofRat, not_or, not_lt]
  exact ⟨⟨⟨key .x, key .y⟩, key .z⟩, key .e⟩

theorem rapidAxis64 {vl p : F64} {m : ℚ} (hvl : 60 ≤ vl.1) (hp : p.1 ≤ 1) (hm : 60 ≤ m) :
    60 ≤ (rapidAxis vl p m).1 := by
  unfold rapidAxis
  split
  · rename_i h
    rw [lt64_iff, val_zero] at h
    dsimp only
    split
    · have hm' : (60 : ℝ) ≤ m := by exact_mod_cast hm
      have h1 : (60 : ℝ) ≤ fl m := le_fl_of_le fl_60 hm'
      have h2 : (60 : ℝ) ≤ fl m / p.1 := by rw [le_div_iff₀ h]; nlinarith
      have h3 : (60 : ℝ) ≤ (PyNum.ofRat m /ₚ p : F64).1 := by
        rw [val_div, val_ofRat]; exact le_fl_of_le fl_60 h2
      have h4 : (60 : ℤ) ≤ PyNum.truncI (PyNum.ofRat m /ₚ p : F64) := by
        change (60 : ℤ) ≤ if 0 ≤ (PyNum.ofRat m /ₚ p : F64).1 then ⌊(PyNum.ofRat m /ₚ p : F64).1⌋
          else ⌈(PyNum.ofRat m /ₚ p : F64).1⌉
        rw [if_pos (by linarith)]
        exact Int.le_floor.2 (by exact_mod_cast h3)
      rw [val_ofInt]
      refine le_fl_of_le fl_60 ?_
      exact_mod_cast h4
    · exact hvl
  · exact hvl

/-- The velocity of a rapid move. -/
theorem rapidVelocity64 (hc : SaneCfg c) {d : V4 F64} {b : Axis → ℝ}
    (hd : ∀ ax, d.get ax = F64.of (b ax)) (hb : ∀ ax, Grid (b ax) ∧ |b ax| ≤ 10 ^ 5) :
    ∃ v, rapidVelocity c d = .ok v ∧ 60 ≤ v.1 := by
  have h0 : (60 : ℝ) ≤ (maxMaxVel c : F64).1 := by
    unfold maxMaxVel
    refine le_trans ?_ (pmax64_right _ _)
    rw [val_ofRat]
    refine le_fl_of_le fl_60 ?_
    have := hc.maxVel .e
    exact_mod_cast this
  unfold rapidVelocity
  dsimp only
  split
  · rename_i hl
    rw [lt64_iff, val_zero] at hl
    obtain ⟨p, hp, hpe⟩ := get_sdiv64 (v := Coord.abs d) hl.ne'
    rw [hp]
    have hr : ∀ ax, (p.get ax).1 ≤ 1 := by
      intro ax
      have e1 : (Coord.abs d).get ax = PyNum.abs (d.get ax) := by
        rw [get_abs64, hd]
        have e : PyNum.abs (F64.of (b ax)) = F64.of |b ax| := by
          apply ext64
          rw [val_abs, val_of, val_of, fl_abs]
        rw [e]
        exact round10_of64 (hb ax).1.abs (by rw [abs_abs]; exact (hb ax).2)
      have hlen : (PyNum.abs (d.get ax)).1 ≤ (Coord.length d).1 := by
        have h0 : ∀ x : F64, 0 ≤ (PyNum.abs x).1 := fun x => by rw [val_abs]; exact abs_nonneg _
        have h1 := length64 (v := ⟨PyNum.abs d.x, PyNum.abs d.y, PyNum.abs d.z, PyNum.abs d.e⟩)
          (fun ax => by cases ax <;> exact h0 _) ax
        have e2 : ∀ x : F64, PyNum.abs x *ₚ PyNum.abs x = x *ₚ x := by
          intro x
          apply ext64
          rw [val_mul, val_mul, val_abs, abs_mul_abs_self]
        have e3 : Coord.length (⟨PyNum.abs d.x, PyNum.abs d.y, PyNum.abs d.z, PyNum.abs d.e⟩ : V4 F64) =
            Coord.length d := by
          unfold Coord.length
          simp only [e2]
        rw [e3] at h1
        cases ax <;> exact h1
      rw [hpe, e1]
      have h2 : (PyNum.abs (d.get ax) /ₚ Coord.length d).1 ≤ ((10 ^ 10 : ℤ) : ℝ) / 10 ^ 10 +
          1 / (4 * 10 ^ 10) := by
        rw [val_div]
        have : (PyNum.abs (d.get ax)).1 / (Coord.length d).1 ≤ 1 := by
          rw [div_le_one hl]; exact hlen
        have := fl_le_of_le fl_one this
        norm_num
        linarith
      have h3 := r10_le64 h2
      have e5 : fl (((10 ^ 10 : ℤ) : ℝ) / 10 ^ 10) = 1 := by
        rw [← fl_one]; norm_num
      rwa [e5] at h3
    refine ⟨_, rfl, ?_⟩
    exact rapidAxis64 (rapidAxis64 (rapidAxis64 (rapidAxis64 h0 (hr .x) (hc.maxVel .x)) (hr .y)
      (hc.maxVel .y)) (hr .z) (hc.maxVel .z)) (hr .e) (hc.maxVel .e)
  · exact ⟨_, rfl, h0⟩

/-- The steps that the generator of a move makes. -/
theorem train64 (hc : SaneCfg c) {n : V4 ℤ} {w : V4 F64} {v : F64} (h : Steps64 c n w)
    {g : LinearGen F64} (hg : LinearGen.new c w v = .ok g) {evs : List (Event F64)}
    (he : Emits c (.linear g) evs) (ax : Axis) : netSteps c ax evs = n.get ax := by
  obtain ⟨N, hN⟩ := he
  obtain ⟨h1, h2⟩ := Props.C28_any_arithmetic_partial hg N evs (hN N le_rfl) ax
  rw [total64 hc h ax] at h1
  rw [h2, h1, Int.toNat_of_nonneg (abs_nonneg _), sign64 hc h ax]

theorem moveLinear_refused {d : V4 F64} {v : F64} {s : MState F64} {e : PyErr}
    (hz : Coord.isZero (roundToSteps c d) = false)
    (h : checkDelta c s.pos (roundToSteps c d) = .error e) :
    moveLinear c env d v s = (.error e, s) := by
  simp only [moveLinear, hz, Bool.false_eq_true, if_false, M.bind_get, h]
  rfl

theorem isZero64 (w : V4 F64) : Coord.isZero w = true ↔ ∀ ax, w.get ax = zeroF := by
  unfold Coord.isZero
  simp only [Bool.and_eq_true, eq64_iff]
  constructor
  · rintro ⟨⟨⟨h1, h2⟩, h3⟩, h4⟩ ax
    cases ax
    exacts [ext64 h1, ext64 h2, ext64 h3, ext64 h4]
  · intro h
    exact ⟨⟨⟨congrArg _ (h .x), congrArg _ (h .y)⟩, congrArg _ (h .z)⟩, congrArg _ (h .e)⟩

/-- The steps of a move on all axes. -/
noncomputable def goV (c : Cfg) (r : Ref) (w : Axis → Option ℚ) : V4 ℤ :=
  ⟨r.go c w .x, r.go c w .y, r.go c w .z, r.go c w .e⟩

theorem get_goV (r : Ref) (w : Axis → Option ℚ) (ax : Axis) : (goV c r w).get ax = r.go c w ax := by
  cases ax <;> rfl

/-- The trace has grown by nothing or by one straight move, which makes no more steps than there are
on the table, or in `m` millimetres of extrusion. -/
def Grown64 (c : Cfg) (m : ℚ) (tr tr' : List (HalCall F64)) : Prop :=
  tr' = tr ∨ ∃ lg d v n, tr' = .move (.linear lg) :: tr ∧ Steps64 c n d ∧ (∃ ax, n.get ax ≠ 0) ∧
    1 ≤ v.1 ∧ LinearGen.new c d v = .ok lg ∧
    ∀ ax, (|n.get ax| : ℝ) ≤ reach c m ax * c.ppm.get ax

/-- The back end raises no exception for the straight moves of a program. -/
def Carries (c : Cfg) (env : Env F64) : Prop :=
  ∀ lg d v n tr, Steps64 c n d → (∃ ax, n.get ax ≠ 0) → 1 ≤ v.1 → LinearGen.new c d v = .ok lg →
    (∀ ax, d.get ax = F64.of (dec ((n.get ax : ℝ) / c.ppm.get ax))) →
    env.move (.move (.linear lg) :: tr) = none

theorem carries_of (henv : ∀ tr, env.move tr = none) : Carries c env :=
  fun _ _ _ _ _ _ _ _ _ _ => henv _

/-- A straight move. -/
theorem linear_step64 (hc : FloatMachine c) (henv : Carries c env) {s : MState F64}
    {r : Ref} (ho : RefOk c r) (hx : |r.extruded| ≤ 3 * 10 ^ 4) (hm : Matches64 c s r) {g : GCode}
    {d : V4 F64} (hd : readDelta s g = .ok d) {w : Axis → Option ℚ} (hw : Words g w)
    (hs : ∀ ax, (∀ q, w ax = some q → SmallWord r q) ∧
      |r.dist c w ax * c.ppm.get ax - r.go c w ax| ≤ 1 / 2 - 1 / 10 ^ 6)
    (he : (|r.go c w .e| : ℝ) ≤ 9999 * c.ppm.e) {m : ℚ} (he' : (|r.go c w .e| : ℝ) ≤ m * c.ppm.e)
    {v : F64} (hv : 1 ≤ v.1) :
    (StepsOnTable c (r.target c w) → ∃ s', moveLinear c env d v s = (.ok (), s') ∧
      Matches64 c s' { r with
        steps := r.target c w
        extruded := r.extruded + dec (r.go c w .e / c.ppm.e) } ∧ Grown64 c m s.trace s'.trace) ∧
    (¬ StepsOnTable c (r.target c w) → ∃ e, Reported e ∧ moveLinear c env d v s = (.error e, s)) := by
  have hrd := readDelta64 hc ho hx hm hd hw fun ax q => (hs ax).1 q
  have hmv := fun ax => move_dec64 hc (hrd ax).1 (hrd ax).2.2.1 (hs ax).2 he
  have hst := fun ax => (hmv ax).1
  have hP : ∀ ax, (0 : ℝ) < c.ppm.get ax := fun ax => by exact_mod_cast hc.plain.sane.cfg.ppm_pos ax
  have hP' : ∀ ax, (c.ppm.get ax : ℝ) ≤ 1000 := fun ax => by
    exact_mod_cast hc.plain.sane.cfg.ppm_le ax
  have hgd : ∀ ax, Grid (dec ((r.go c w ax : ℝ) / c.ppm.get ax)) := fun ax => by
    rw [← round10_dec]; exact grid_round10 _
  have hxyz : ∀ ax, ax ≠ .e → dec ((r.go c w ax : ℝ) / c.ppm.get ax) = r.go c w ax / c.ppm.get ax :=
    fun ax hax => by
      rw [← round10_dec]
      exact round10_grid ((decimalStep_ppm (hc.plain.step ax hax)).2 _)
  have hat := fun ax => refOk_at hc ho hx ax
  obtain ⟨hck, hrep⟩ := checkDelta64 hc.plain.sane hm.pos hst (fun ax hax => ⟨(hat ax).1, (hat ax).2.2 hax⟩)
    (fun ax hax => ⟨hgd ax, by
      rw [hxyz ax hax]
      have := (hrd ax).2.2.2 hax
      linarith [(hmv ax).2]⟩)
  have htab : checkDelta c s.pos (roundToSteps c d) = .ok () ↔ StepsOnTable c (r.target c w) := by
    rw [hck]
    unfold StepsOnTable
    refine forall_congr' fun ax => forall_congr' fun hax => ?_
    rw [hxyz ax hax, at_steps hax, ← add_div]
    have e : (r.steps ax : ℝ) + (r.go c w ax : ℝ) = r.target c w ax := by
      unfold Ref.go
      push_cast; ring
    rw [e, div_le_iff₀ (hP ax)]
    refine and_congr_left fun _ => ⟨fun h => ?_, fun h => ?_⟩
    · have : (0 : ℝ) ≤ r.target c w ax := by
        have := mul_nonneg h (hP ax).le
        rwa [div_mul_cancel₀ _ (hP ax).ne'] at this
      exact_mod_cast this
    · have : (0 : ℝ) ≤ r.target c w ax := by exact_mod_cast h
      exact div_nonneg this (hP ax).le
  by_cases hz : Coord.isZero (roundToSteps c d) = true
  · have hg0 : ∀ ax, r.go c w ax = 0 := by
      intro ax
      have h1 := (isZero64 _).1 hz ax
      rw [hst ax] at h1
      have h2 := eq_zero64.1 ((eq64_iff _ _).2 (congrArg Subtype.val h1))
      exact dec_zero (hP ax) (hP' ax) h2
    have ht0 : r.target c w = r.steps := by
      funext ax
      have := hg0 ax
      unfold Ref.go at this
      omega
    refine ⟨fun _ => ⟨s, moveLinear_zero hz, ?_, .inl rfl⟩, fun hn => absurd ?_ hn⟩
    · have : dec ((r.go c w .e : ℝ) / c.ppm.e) = 0 := by rw [hg0]; simp [dec, rnd_zero]
      rw [ht0, this, add_zero]; exact hm
    · rw [ht0]; exact ho.table
  · have hz : Coord.isZero (roundToSteps c d) = false := by simpa using hz
    by_cases hon : StepsOnTable c (r.target c w)
    · refine ⟨fun _ => ?_, fun hn => absurd hon hn⟩
      have hreach : ∀ ax, |(r.go c w ax : ℝ)| ≤ reach c m ax * c.ppm.get ax := by
        intro ax
        by_cases hax : ax = .e
        · subst hax; exact he'
        · have b1 := hon ax hax
          have b2 := ho.table ax hax
          have b3 : (0 : ℝ) ≤ r.target c w ax := by exact_mod_cast b1.1
          have b4 : (0 : ℝ) ≤ r.steps ax := by exact_mod_cast b2.1
          have e : reach c m ax = tableSize c ax := by
            cases ax
            exacts [rfl, rfl, rfl, absurd rfl hax]
          rw [e]
          unfold Ref.go
          push_cast
          rw [abs_le]
          constructor <;> linarith [b1.2, b2.2]
      have hS : Steps64 c (goV c r w) (roundToSteps c d) := by
        have hsz : ∀ ax, |(r.go c w ax : ℝ)| ≤ 10 ^ 4 * c.ppm.get ax := by
          intro ax
          by_cases hax : ax = .e
          · subst hax
            have := hP .e
            refine he.trans ?_
            simp only [V4.get] at this ⊢
            nlinarith
          · have b1 := hon ax hax
            have b2 := ho.table ax hax
            have b3 : (0 : ℝ) ≤ r.target c w ax := by exact_mod_cast b1.1
            have b4 : (0 : ℝ) ≤ r.steps ax := by exact_mod_cast b2.1
            have b5 := mul_le_mul_of_nonneg_right (tableSize_le hc.plain.sane ax).2.1 (hP ax).le
            unfold Ref.go
            push_cast
            rw [abs_le]
            constructor <;> linarith [b1.2, b2.2]
        refine ⟨fun ax => ?_, fun ax h0 => ?_, fun ax => ?_⟩
        · rw [hst ax, get_goV]
          have h1 := dec_near ((r.go c w ax : ℝ) / c.ppm.get ax)
          have h2 : |(r.go c w ax : ℝ) / c.ppm.get ax| ≤ 10 ^ 4 := by
            rw [abs_div, abs_of_pos (hP ax), div_le_iff₀ (hP ax)]
            exact hsz ax
          have h3 : |dec ((r.go c w ax : ℝ) / c.ppm.get ax)| ≤ 10 ^ 5 := by
            have := abs_sub_abs_le_abs_sub (dec ((r.go c w ax : ℝ) / c.ppm.get ax))
              ((r.go c w ax : ℝ) / c.ppm.get ax)
            have e : (1 : ℝ) / 2 / 10 ^ 10 ≤ 1 := by norm_num
            linarith
          have h4 := of_near h3
          refine (abs_sub_le _ (dec ((r.go c w ax : ℝ) / c.ppm.get ax)) _).trans ?_
          refine (add_le_add h4 h1).trans (by norm_num)
        · rw [get_goV] at h0
          rw [hst ax, h0]
          have : dec (((0 : ℤ) : ℝ) / c.ppm.get ax) = 0 := by simp [dec, rnd_zero]
          rw [this, val_of, fl_zero]
        · rw [get_goV]; exact hsz ax
      have hne : ∃ ax, (goV c r w).get ax ≠ 0 := by
        by_contra hc0
        push Not at hc0
        have : Coord.isZero (roundToSteps c d) = true := by
          rw [isZero64]
          intro ax
          exact ext64 (by rw [hS.zero ax (hc0 ax), val_zero])
        rw [hz] at this; cases this
      obtain ⟨lg, hlg, hgood⟩ := linear64_new hc.plain.sane.cfg hS hne hv
      obtain ⟨p, N, hN⟩ := linear64_done hgood
      have hp : Emits c (.linear lg) p := ⟨N, hN⟩
      have hvel := checkVelocity64 hc.plain.sane.cfg hc.plain.limits hc.fast
        (limit64 hc.plain.sane.cfg hc.plain.limits hc.fast hc.plain.auto hS hne hv hlg)
      have hchk := htab.2 hon
      rcases moveLinear_cases (c := c) (env := env) d v s with ⟨hz', _⟩ | ⟨_, e, _, h⟩ |
        ⟨_, lg', _, h2, _, ⟨e, h3, _⟩ | ⟨_, h⟩⟩
      · rw [hz] at hz'; cases hz'
      · exfalso
        rcases h with h | h | ⟨g', h', h⟩
        · rw [hchk] at h; cases h
        · rw [hlg] at h; cases h
        · rw [hlg] at h'; cases h'
          rw [hvel] at h; cases h
      · rw [hlg] at h2
        cases h2
        rw [henv _ _ _ _ _ hS hne hv hlg fun ax => by rw [get_goV]; exact hst ax] at h3
        cases h3
      · rw [hlg] at h2
        cases h2
        refine ⟨_, h, ⟨fun ax => ?_, ?_, hm.loc, hm.conv, hm.mode, hm.vel⟩,
          .inr ⟨lg, _, v, goV c r w, rfl, hS, hne, hv, hlg, fun ax => by rw [get_goV]; exact hreach ax⟩⟩
        · dsimp only
          have hsz : |dec ((r.go c w ax : ℝ) / c.ppm.get ax)| ≤ 10 ^ 5 := by
            have h1 := dec_near ((r.go c w ax : ℝ) / c.ppm.get ax)
            have h2 : |(r.go c w ax : ℝ) / c.ppm.get ax| ≤ 10 ^ 4 := by
              rw [abs_div, abs_of_pos (hP ax), div_le_iff₀ (hP ax), ← get_goV r w ax]
              exact hS.size ax
            have := abs_sub_abs_le_abs_sub (dec ((r.go c w ax : ℝ) / c.ppm.get ax))
              ((r.go c w ax : ℝ) / c.ppm.get ax)
            have e : (1 : ℝ) / 2 / 10 ^ 10 ≤ 1 := by norm_num
            linarith
          rw [get_addF, hm.pos, hst ax, add64 (hat ax).1 (hgd ax) ((hat ax).2.1.trans (by norm_num)) hsz]
          congr 1
          by_cases hax : ax = .e
          · subst hax; rfl
          · rw [hxyz ax hax, at_steps hax, at_steps hax, ← add_div]
            unfold Ref.go
            push_cast
            congr 1; ring
        · obtain ⟨evs, hev, hn⟩ := hm.motors
          refine ⟨_, .move hp hev, fun ax => ?_⟩
          rw [netSteps_append (emits_announced hp (List.prefix_refl _)), hn,
            train64 hc.plain.sane.cfg hS hlg hp ax, get_goV]
          unfold Ref.go
          dsimp only
          ring
    · refine ⟨fun h => absurd h hon, fun _ => ?_⟩
      rcases hchk : checkDelta c s.pos (roundToSteps c d) with e | ⟨⟩
      · exact ⟨e, hrep e hchk, moveLinear_refused hz hchk⟩
      · exact absurd (htab.1 hchk) hon

/-- The states of the interpreter keep their shape. -/
theorem exec_refOk (hc : FloatMachine c) {r r' : Ref} (ho : RefOk c r) {l : Line} (ht : Tame c r l)
    (h : r.exec c l.stmt = some r') : RefOk c r' := by
  cases hl : l.stmt <;> rw [hl] at h <;> unfold Ref.exec at h <;> simp only at h
  case move w =>
    split at h
    · rename_i hon
      cases h
      refine ⟨hon, ho.extruded.add ?_, ho.origin, ho.unit, ho.feed⟩
      rw [← round10_dec]; exact grid_round10 _
    · cases h
  case absolute => cases h; exact ⟨ho.table, ho.extruded, ho.origin, ho.unit, ho.feed⟩
  case relative => cases h; exact ⟨ho.table, ho.extruded, ho.origin, ho.unit, ho.feed⟩
  case inch => cases h; exact ⟨ho.table, ho.extruded, ho.origin, .inr rfl, ho.feed⟩
  case mm => cases h; exact ⟨ho.table, ho.extruded, ho.origin, .inl rfl, ho.feed⟩
  case origin w =>
    cases h
    refine ⟨ho.table, ho.extruded, fun ax => ?_, ho.unit, ho.feed⟩
    obtain ⟨ga, ba, _⟩ := refOk_at hc ho ht.extruded ax
    dsimp only
    unfold Ref.newOrigin
    split
    · rename_i q hq
      obtain ⟨n9, bq⟩ := ht.origin w hl ax q hq
      have gq := (word64 n9 ho.unit (bq.trans (by norm_num))).1
      rw [← round10_dec, round10_grid gq]
      exact ⟨ga.sub gq, (abs_sub _ _).trans (by linarith)⟩
    · split
      · exact ⟨ga, ba.trans (by norm_num)⟩
      · exact ho.origin ax
  case machineOrigin =>
    cases h
    exact ⟨ho.table, ho.extruded, fun ax => ⟨grid_zero, by norm_num⟩, ho.unit, ho.feed⟩
  case other => cases h; exact ho

theorem decimalQ_nine {q : ℚ} (h : NineDigits q) : Grid (q : ℝ) := by
  obtain ⟨k, hk⟩ := h
  have hk' : (q : ℝ) * 10 ^ 9 = k := by exact_mod_cast hk
  refine ⟨k * 10, ?_⟩
  rw [e10_val]; push_cast; rw [← hk']; ring

theorem feed_ok64 {s : MState F64} {r : Ref} (hm : Matches64 c s r) {g : GCode} {l : Line}
    (hf : WordIs g 'F' l.feed) : g.get 'F' s.vel (PyNum.ofRat 1) = .ok (F64.of (lineFeed r l)) := by
  unfold lineFeed
  generalize l.feed = o at hf
  cases o with
  | none => rw [get_noWord hf, hm.vel]
  | some q =>
    rw [get_word hf]
    refine congrArg _ (ext64 ?_)
    rw [val_mul, val_ofRat, val_ofRat, val_of]
    have : fl ((1 : ℚ) : ℝ) = 1 := by simp [fl_one]
    rw [this, mul_one, fl_idem]

/-- What a line does, feed aside. -/
theorem exec_matches64 (hc : FloatMachine c) (henv : Carries c env) {s : MState F64}
    {r : Ref} (ho : RefOk c r) (hm : Matches64 c s r) {g : GCode} {l : Line} (hg : Says g l)
    (ht : Tame c r l) {m : ℚ} (he : ∀ w, l.stmt = .move w → (|r.go c w .e| : ℝ) ≤ m * c.ppm.e)
    {d rad : V4 F64} (hd : readDelta s g = .ok d) {v : F64} (hv : 1 ≤ v.1) :
    (∀ r', r.exec c l.stmt = some r' → ∃ a s', execCmd c env (lineCmd g) g d rad v s = (.ok a, s') ∧
      Matches64 c s' r' ∧ Grown64 c m s.trace s'.trace) ∧
    (r.exec c l.stmt = none →
      ∃ e, Reported e ∧ execCmd c env (lineCmd g) g d rad v s = (.error e, s)) := by
  obtain ⟨hn, hf, hg⟩ := hg
  cases hl : l.stmt <;> rw [hl] at hg <;> simp only at hg
  case move w =>
    obtain ⟨hlin, hw⟩ := hg
    have hrd := readDelta64 hc ho ht.extruded hm hd hw fun ax q => (ht.move w hl ax).1 q
    have key : ∀ {v' : F64}, 1 ≤ v'.1 → ∀ {act : M F64 (Option (Answer F64))},
        (∀ a s', moveLinear c env d v' s = (.ok a, s') → act s = (.ok none, s')) →
        (∀ e s', moveLinear c env d v' s = (.error e, s') → act s = (.error e, s')) →
        (∀ r', r.exec c (.move w) = some r' → ∃ a s', act s = (.ok a, s') ∧ Matches64 c s' r' ∧
          Grown64 c m s.trace s'.trace) ∧
        (r.exec c (.move w) = none → ∃ e, Reported e ∧ act s = (.error e, s)) := by
      intro v' hv' act h1 h2
      obtain ⟨k1, k2⟩ := linear_step64 hc henv ho ht.extruded hm hd hw (ht.move w hl)
        (ht.amount w hl) (he w hl) hv'
      unfold Ref.exec
      by_cases hon : StepsOnTable c (r.target c w)
      · simp only [if_pos hon]
        obtain ⟨s', h3, h4⟩ := k1 hon
        refine ⟨fun r' hr' => ?_, fun h => by cases h⟩
        cases hr'
        exact ⟨none, s', h1 _ _ h3, h4⟩
      · simp only [if_neg hon]
        obtain ⟨e, h3, h4⟩ := k2 hon
        exact ⟨fun r' hr' => by simp at hr', fun _ => ⟨e, h3, h2 _ _ h4⟩⟩
    rcases hlin with hlin | hlin
    · rw [is_lineCmd (cmd := .g0) ⟨_, by simp [Cmd.words]; rfl, hlin⟩]
      obtain ⟨w', hw', hw60⟩ := rapidVelocity64 hc.plain.sane.cfg (fun ax => (hrd ax).1)
        fun ax => ⟨(hrd ax).2.1, (hrd ax).2.2.1⟩
      refine key (v' := w') (by linarith) (fun a s' h => ?_) fun e s' h => ?_
      · simp only [execCmd, hw', M.bind_lift_ok]
        exact M.bind_ok h
      · simp only [execCmd, hw', M.bind_lift_ok]
        exact M.bind_error h
    · rw [lineCmd_g1.2 hlin]
      exact key hv (fun a s' h => M.bind_ok h) fun e s' h => M.bind_error h
  case absolute =>
    rw [is_lineCmd (cmd := .g90) ⟨_, by simp [Cmd.words]; rfl, hg⟩]
    refine ⟨fun r' hr' => ?_, fun h => by cases h⟩
    cases hr'
    exact ⟨none, _, rfl, ⟨hm.pos, hm.motors, hm.loc, hm.conv, rfl, hm.vel⟩, .inl rfl⟩
  case relative =>
    rw [is_lineCmd (cmd := .g91) ⟨_, by simp [Cmd.words]; rfl, hg⟩]
    refine ⟨fun r' hr' => ?_, fun h => by cases h⟩
    cases hr'
    exact ⟨none, _, rfl, ⟨hm.pos, hm.motors, hm.loc, hm.conv, rfl, hm.vel⟩, .inl rfl⟩
  case inch =>
    rw [is_lineCmd (cmd := .g20) ⟨_, by simp [Cmd.words]; rfl, hg⟩]
    refine ⟨fun r' hr' => ?_, fun h => by cases h⟩
    cases hr'
    refine ⟨none, _, rfl, ⟨hm.pos, hm.motors, hm.loc, ?_, hm.mode, hm.vel⟩, .inl rfl⟩
    simp only [of_ofRat]; norm_num
  case mm =>
    rw [is_lineCmd (cmd := .g21) ⟨_, by simp [Cmd.words]; rfl, hg⟩]
    refine ⟨fun r' hr' => ?_, fun h => by cases h⟩
    cases hr'
    refine ⟨none, _, rfl, ⟨hm.pos, hm.motors, hm.loc, ?_, hm.mode, hm.vel⟩, .inl rfl⟩
    simp only [of_ofRat]; norm_num
  case machineOrigin =>
    rw [is_lineCmd (cmd := .g53) ⟨_, by simp [Cmd.words]; rfl, hg⟩]
    refine ⟨fun r' hr' => ?_, fun h => by cases h⟩
    cases hr'
    exact ⟨none, _, rfl, ⟨hm.pos, hm.motors, fun ax => (get_zeroF ax).trans of_round10_zero, hm.conv,
      hm.mode, hm.vel⟩, .inl rfl⟩
  case other =>
    have key : ∃ s', execCmd c env (lineCmd g) g d rad v s = (.ok none, s') ∧ Matches64 c s' r ∧
        Grown64 c m s.trace s'.trace := by
      rcases hg with ⟨p, hp, hi⟩ | hg
      · simp only [List.mem_cons, List.not_mem_nil, or_false] at hp
        rcases hp with rfl | rfl | rfl
        · rw [is_lineCmd (cmd := .g17) ⟨_, by simp [Cmd.words], hi⟩]
          exact ⟨_, rfl, ⟨hm.pos, hm.motors, hm.loc, hm.conv, hm.mode, hm.vel⟩, .inl rfl⟩
        · rw [is_lineCmd (cmd := .g18) ⟨_, by simp [Cmd.words], hi⟩]
          exact ⟨_, rfl, ⟨hm.pos, hm.motors, hm.loc, hm.conv, hm.mode, hm.vel⟩, .inl rfl⟩
        · rw [is_lineCmd (cmd := .g19) ⟨_, by simp [Cmd.words], hi⟩]
          exact ⟨_, rfl, ⟨hm.pos, hm.motors, hm.loc, hm.conv, hm.mode, hm.vel⟩, .inl rfl⟩
      · rw [lineCmd_nothing.2 hg]
        exact ⟨_, rfl, hm, .inl rfl⟩
    refine ⟨fun r' hr' => ?_, fun h => by cases h⟩
    cases hr'
    obtain ⟨s', h1, h2⟩ := key
    exact ⟨none, s', h1, h2⟩
  case origin w =>
    obtain ⟨hi, hw⟩ := hg
    rw [is_lineCmd (cmd := .g92) ⟨_, by simp [Cmd.words]; rfl, hi⟩]
    refine ⟨fun r' hr' => ?_, fun h => by cases h⟩
    cases hr'
    have hco : g.hasCoordinates = true ↔ ¬ ∀ ax, w ax = none := by
      rw [hasCoordinates_iff]
      constructor
      · rintro ⟨k, hk, h⟩ hall
        simp only [List.mem_cons, List.not_mem_nil, or_false] at hk
        have := fun ax => (word_iff (hw ax)).2.2 (hall ax)
        rcases hk with rfl | rfl | rfl | rfl
        exacts [h (this .x), h (this .y), h (this .z), h (this .e)]
      · intro h
        push Not at h
        obtain ⟨ax, hax⟩ := h
        exact ⟨axisWord ax, by cases ax <;> simp [axisWord], fun h => hax ((word_iff (hw ax)).2.1 h)⟩
    suffices h : ∃ loc, execCmd c env .g92 g d rad v s = (.ok none, { s with loc := loc }) ∧
        ∀ ax, loc.get ax = F64.of (r.newOrigin c w ax) by
      obtain ⟨loc, h1, h2⟩ := h
      exact ⟨none, _, h1, ⟨hm.pos, hm.motors, h2, hm.conv, hm.mode, hm.vel⟩, .inl rfl⟩
    by_cases hall : ∀ ax, w ax = none
    · refine ⟨s.pos, ?_, fun ax => ?_⟩
      · have hcf : g.hasCoordinates = false := by
          rw [← Bool.not_eq_true, hco]
          exact not_not.2 hall
        have h1 : setLocal g s = (.ok (), { s with loc := s.pos }) := by
          unfold setLocal
          rw [M.bind_get]
          simp only [hcf]
          rfl
        exact M.bind_ok h1
      · unfold Ref.newOrigin
        rw [hall ax]
        simp only [if_pos hall]
        exact hm.pos ax
    · have hcf := hco.2 hall
      have hk : ∃ k, g.coordinates (Coord.new (s.pos.x -ₚ s.loc.x) (s.pos.y -ₚ s.loc.y)
          (s.pos.z -ₚ s.loc.z) (s.pos.e -ₚ s.loc.e)) s.conv = .ok k := by
        rcases h : g.coordinates (Coord.new (s.pos.x -ₚ s.loc.x) (s.pos.y -ₚ s.loc.y)
          (s.pos.z -ₚ s.loc.z) (s.pos.e -ₚ s.loc.e)) s.conv with e | k
        · obtain ⟨_, k, t, h1, h2⟩ := coordinates_error h
          exact absurd h2 (hn _ (mem_of_lookup h1))
        · exact ⟨k, rfl⟩
      obtain ⟨k, hk⟩ := hk
      refine ⟨Coord.sub s.pos k, ?_, fun ax => ?_⟩
      · have h1 : setLocal g s = (.ok (), { s with loc := Coord.sub s.pos k }) := by
          unfold setLocal
          rw [M.bind_get]
          simp only [hcf, if_true, hk]
          rfl
        exact M.bind_ok h1
      · obtain ⟨ga, ba, _⟩ := refOk_at hc ho ht.extruded ax
        obtain ⟨go, bo⟩ := ho.origin ax
        rw [get_subF, hm.pos]
        unfold Ref.newOrigin
        obtain ⟨w1, w2⟩ := word_iff (hw ax)
        rcases coordinates_okF hk ax with ⟨q, hq, h⟩ | ⟨h0, h⟩
        · have hq' := (w1 q).1 hq
          obtain ⟨n9, bq⟩ := ht.origin w hl ax q hq'
          obtain ⟨gq, hq2⟩ := word64 n9 ho.unit (bq.trans (by norm_num))
          rw [hq', h, hm.conv, hq2, sub64 ga gq (ba.trans (by norm_num)) (bq.trans (by norm_num))]
          simp only
          rw [← round10_dec, round10_grid gq]
        · have b1 : |r.at c ax - r.origin ax| ≤ 8 * 10 ^ 4 := (abs_sub _ _).trans (by linarith)
          have e0 : (Coord.new (s.pos.x -ₚ s.loc.x) (s.pos.y -ₚ s.loc.y) (s.pos.z -ₚ s.loc.z)
            (s.pos.e -ₚ s.loc.e)).get ax = (Coord.sub s.pos s.loc).get ax := rfl
          rw [w2.1 h0, h, e0, get_subF, hm.pos, hm.loc,
            sub64 ga go (ba.trans (by norm_num)) (bo.trans (by norm_num)),
            round10_of64 (ga.sub go) (b1.trans (by norm_num)),
            sub64 ga (ga.sub go) (ba.trans (by norm_num)) (b1.trans (by norm_num))]
          simp only [if_neg hall]
          rw [sub_sub_cancel]

/-- One line. -/
theorem line_matches64 (hc : FloatMachine c) (henv : Carries c env) {s : MState F64}
    {r : Ref} (ho : RefOk c r) (hm : Matches64 c s r) {g : GCode} {l : Line} (hg : Says g l)
    (ht : Tame c r l) {m : ℚ} (he : ∀ w, l.stmt = .move w → (|r.go c w .e| : ℝ) ≤ m * c.ppm.e) :
    (∀ r', r.step c l = some r' → ∃ a s', doCommand c env (some g) s = (.ok a, s') ∧
      Matches64 c s' r' ∧ RefOk c r' ∧ Grown64 c m s.trace s'.trace) ∧
    (r.step c l = none → ∃ e, Reported e ∧ doCommand c env (some g) s = (.error e, s)) := by
  have hfv := feed_ok64 hm hg.2.1
  have hn := hg.1
  have hfg : Grid (lineFeed r l) := by
    unfold lineFeed
    split
    · exact ho.feed
    · rename_i q hq; exact decimalQ_nine (ht.feed q hq)
  have hmin1 : (1 : ℝ) ≤ c.minVel := by exact_mod_cast hc.plain.sane.minVel
  have hmin2 : (c.minVel : ℝ) ≤ 10 ^ 5 := by exact_mod_cast hc.slow.1
  have hming : Grid (c.minVel : ℝ) := decimalQ_grid hc.slow.2
  have hcmp : (F64.of (lineFeed r l) <ₚ PyNum.ofRat c.minVel) = true ↔ lineFeed r l < c.minVel := by
    rw [lt64_iff, val_ofRat, val_of]
    constructor
    · intro h
      by_contra hc0
      exact absurd (fl_mono (not_lt.1 hc0)) (not_le.2 h)
    · intro h
      have h1 := grid_gap hfg hming h
      have one : Grid ((1 : ℝ) / 10 ^ 10) := ⟨1, by rw [e10_val]; norm_num⟩
      have h2 := (lt_of64 (x := c.minVel - 1 / 10 ^ 10) (y := c.minVel) (hming.sub one) hming (by
        have : (0 : ℝ) ≤ c.minVel - 1 / 10 ^ 10 := by
          have : (1 : ℝ) / 10 ^ 10 ≤ 1 := by norm_num
          linarith
        rw [abs_of_nonneg this]
        have : (0 : ℝ) ≤ 1 / 10 ^ 10 := by norm_num
        linarith) (by rw [abs_of_nonneg (by linarith)]; exact hmin2)).2 (by
          have : (0 : ℝ) < 1 / 10 ^ 10 := by norm_num
          linarith)
      rw [lt64_iff, val_of, val_of] at h2
      exact lt_of_le_of_lt (fl_mono (by linarith)) h2
  rw [step_eq]
  rcases doCommand_cases (c := c) (env := env) g s with ⟨e', h1, h2⟩ | ⟨d, v, rad, hd, hv, _, hx⟩
  · exfalso
    rcases h2 with h2 | h2 | h2
    · obtain ⟨_, k, t, h3, h4⟩ := readDelta_error h2
      exact absurd h4 (hn _ (mem_of_lookup h3))
    · rw [hfv] at h2; cases h2
    · obtain ⟨_, k, t, h3, h4⟩ := radius_error h2
      exact absurd h4 (hn _ (mem_of_lookup h3))
  rw [hfv] at hv
  cases hv
  rcases hx with ⟨hlt, h⟩ | ⟨hmin, hx⟩
  · rw [hcmp] at hlt
    rw [if_pos hlt]
    exact ⟨fun r' h' => by simp at h', fun _ => ⟨.gmachine "feed speed too low", trivial, h⟩⟩
  · rw [← Bool.not_eq_true, hcmp, not_lt] at hmin
    rw [if_neg (not_lt.2 hmin)]
    have hv1 : (1 : ℝ) ≤ (F64.of (lineFeed r l)).1 := by
      rw [val_of]
      exact le_fl_of_le fl_one (by linarith)
    obtain ⟨k1, k2⟩ := exec_matches64 hc henv ho hm hg ht he hd (rad := rad) hv1
    cases hex : r.exec c l.stmt with
    | none =>
      obtain ⟨e, h3, h4⟩ := k2 hex
      refine ⟨fun r' h' => by simp at h', fun _ => ⟨e, h3, ?_⟩⟩
      rcases hx with ⟨a, s', h5, h6⟩ | ⟨e', s', h5, h6⟩
      · rw [h4] at h5; cases h5
      · rw [h4] at h5; cases h5; exact h6
    | some r1 =>
      obtain ⟨a, s1, h3, h4, h7⟩ := k1 r1 hex
      refine ⟨fun r' h' => ?_, fun h => by cases h⟩
      cases h'
      have ho1 := exec_refOk hc ho ht hex
      rcases hx with ⟨a', s', h5, h6⟩ | ⟨e', s', h5, h6⟩
      · rw [h3] at h5; cases h5
        exact ⟨a, _, h6, ⟨h4.pos, h4.motors, h4.loc, h4.conv, h4.mode, rfl⟩,
          ⟨ho1.table, ho1.extruded, ho1.origin, ho1.unit, hfg⟩, h7⟩
      · rw [h3] at h5; cases h5

theorem pmin_of64 (x y : ℝ) : pmin (F64.of x) (F64.of y) = F64.of (min x y) := by
  unfold pmin
  apply ext64
  split
  · rename_i h
    rw [lt64_iff, val_of, val_of] at h
    have : ¬ x ≤ y := fun h' => absurd (fl_mono h') (not_le.2 h)
    rw [min_eq_right (le_of_not_ge this)]
  · rename_i h
    rw [lt64_iff, val_of, val_of, not_lt] at h
    rcases le_total x y with h' | h'
    · rw [min_eq_left h']
    · rw [min_eq_right h', val_of, val_of]
      exact le_antisymm h (fl_mono h')

theorem matches_init64 : Matches64 c (MState.init c) (Ref.init c) := by
  refine ⟨fun ax => ?_, ⟨[], .other (fun g h => by cases h) (.other (fun g h => by cases h) .nil),
    fun ax => rfl⟩, fun ax => (get_zeroF ax).trans of_round10_zero, ?_, rfl, ?_⟩
  · have h : (Ref.init c).at c ax = 0 := by cases ax <;> simp [Ref.init, Ref.at]
    rw [h]
    exact (get_zeroF ax).trans of_round10_zero
  · change (PyNum.ofRat 1 : F64) = F64.of 1
    rw [of_ofRat]; norm_num
  · simp only [MState.init, minMaxVel, Ref.init, of_ofRat, pmin_of64, min_assoc]

theorem refOk_init (hc : FloatMachine c) : RefOk c (Ref.init c) := by
  refine ⟨fun ax hax => ?_, grid_zero, fun ax => ⟨grid_zero, by simp [Ref.init]⟩, .inl rfl, ?_⟩
  · have hP : (0 : ℝ) < c.ppm.get ax := by exact_mod_cast hc.plain.sane.cfg.ppm_pos ax
    refine ⟨le_rfl, ?_⟩
    simp only [Ref.init, Int.cast_zero]
    exact mul_nonneg (tableSize_le hc.plain.sane ax).1 hP.le
  · have hg : ∀ ax, Grid (c.maxVel.get ax : ℝ) := by
      intro ax
      obtain ⟨k, hk⟩ := hc.plain.limits ax
      refine ⟨60 * k, ?_⟩
      push_cast
      rw [e10_val, mul_div_assoc, ← hk]
      ring
    have hmin : ∀ {x y : ℝ}, Grid x → Grid y → Grid (min x y) := by
      intro x y hx hy
      rcases min_choice x y with h | h <;> rw [h] <;> assumption
    exact hmin (hmin (hg .x) (hg .y)) (hmin (hg .z) (hg .e))

/-- A program. -/
theorem program_matches64 [PyText] (hc : FloatMachine c) (henv : Carries c env)
    (prog : List (List Char × Line))
    (hp : ∀ p ∈ prog, ∃ g, parseLine p.1 = .ok (some g) ∧ Says g p.2) {m : ℚ}
    {Q : List (HalCall F64) → Prop} (hQ : ∀ tr tr', Q tr → Grown64 c m tr tr' → Q tr') :
    ∀ {s : MState F64} {r : Ref}, RefOk c r → Matches64 c s r → TameRun c r (prog.map (·.2)) →
      Extrudes c m r (prog.map (·.2)) → Q s.trace →
      ∃ s', machineRun c env s (prog.map (·.1)) = some ((r.run c (prog.map (·.2))).1, s') ∧
        Matches64 c s' (r.run c (prog.map (·.2))).2 ∧ RefOk c (r.run c (prog.map (·.2))).2 ∧
        Q s'.trace := by
  induction prog with
  | nil => exact fun ho hm _ _ hq => ⟨_, rfl, hm, ho, hq⟩
  | cons p ps ih =>
    intro s r ho hm hx hy hq
    obtain ⟨hx1, hx2⟩ := hx
    obtain ⟨hy1, hy2⟩ := hy
    obtain ⟨g, hpar, hg⟩ := hp p (by simp)
    obtain ⟨k1, k2⟩ := line_matches64 hc henv ho hm hg hx1 hy1
    have ih' := @ih (fun q hq => hp q (by simp [hq]))
    simp only [List.map_cons, machineRun, Ref.run]
    cases hr : r.step c p.2 with
    | none =>
      obtain ⟨e, he, h⟩ := k2 hr
      have hl : doLine c env p.1 s = (.ok (.error e), s) := by
        unfold doLine
        rw [hpar]
        simp only [h]
        unfold Reported at he
        unfold catchLine
        split at he <;> simp_all
      simp only [hl]
      obtain ⟨s', h1, h2⟩ := ih' ho hm (by rw [hr] at hx2; exact hx2)
        (by rw [hr] at hy2; exact hy2) hq
      exact ⟨s', by rw [h1]; rfl, h2⟩
    | some r' =>
      obtain ⟨a, s1, h, h', h'', h3⟩ := k1 r' hr
      have hl : doLine c env p.1 s = (.ok (.ok a), s1) := by
        unfold doLine
        rw [hpar]
        simp only [h]
      simp only [hl]
      obtain ⟨s', h1, h2⟩ := ih' h'' h' (by rw [hr] at hx2; exact hx2)
        (by rw [hr] at hy2; exact hy2) (hQ _ _ hq h3)
      exact ⟨s', by rw [h1]; rfl, h2⟩

theorem tame_extrudes {r : Ref} {ls : List Line} (h : TameRun c r ls) : Extrudes c 9999 r ls := by
  induction ls generalizing r with
  | nil => trivial
  | cons l ls ih => exact ⟨fun w hw => by exact_mod_cast h.1.amount w hw, ih h.2⟩

end PyCNC
