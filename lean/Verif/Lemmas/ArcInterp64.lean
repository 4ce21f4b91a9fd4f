import Verif.Spec.ArcInterp64
import Verif.Lemmas.ArcLimit64
import Verif.Props.Arc64

/-!
# The machine that computes in binary64 and the reference interpreter with arcs
-/

set_option linter.unusedSectionVars false

namespace PyCNC

open Spec

variable [PyRound] {c : Cfg} {env : Env F64}

/-- The vector to the centre. -/
theorem centre_steps64 (hc : FloatMachine c) {s : MState F64} {r : Ref} (ho : RefOk c r)
    (hm : Matches64 c s r) {g : GCode} {rad : V4 F64} (hr : g.radius Coord.zero s.conv = .ok rad)
    {k : Axis → Option ℚ} (hk : CentreWords g k)
    (hs : ∀ ax, ax ≠ .e → ∀ q, k ax = some q → SmallWord r q ∧
      |(q : ℝ) * r.unit * c.ppm.get ax - r.centre c k ax| ≤ 1 / 2 - 1 / 10 ^ 6) :
    roundToSteps c rad = (r.toCentre c k).map F64.of := by
  unfold GCode.radius at hr
  obtain ⟨i, hi, hr⟩ := bindE_ok hr
  obtain ⟨j, hj, hr⟩ := bindE_ok hr
  obtain ⟨l, hl, hr⟩ := bindE_ok hr
  cases hr
  have hz : ∀ p : ℚ, 0 < p → p ≤ 1000 →
      PyNum.round10 (Coord.roundTo (F64.of 0) (PyNum.ofRat 1 /ₚ PyNum.ofRat p)) = F64.of 0 := by
    intro p h1 h2
    refine roundTo_exact64 (n := 0) h1 h2 (by norm_num) (by norm_num) grid_zero (by norm_num)
  have key : ∀ {ax : Axis} {ch : Char} {x : F64}, ax ≠ .e →
      g.get ch ((Coord.zero : V4 F64).get ax) s.conv = .ok x → WordIs g ch (k ax) →
      PyNum.round10 (Coord.roundTo (PyNum.round10 x) (PyNum.ofRat 1 /ₚ PyNum.ofRat (c.ppm.get ax))) =
        F64.of (r.centre c k ax / c.ppm.get ax) := by
    intro ax ch x hax h hw
    obtain ⟨w1, w2⟩ := word_iff hw
    have hP : (0 : ℝ) < c.ppm.get ax := by exact_mod_cast hc.plain.sane.cfg.ppm_pos ax
    have hP1 : (1 : ℝ) ≤ c.ppm.get ax := by exact_mod_cast hc.ppm ax
    rcases get_ok h with ⟨q, hq, rfl⟩ | ⟨hn, rfl⟩
    · have hq' := (w1 q).1 hq
      obtain ⟨⟨n9, bq⟩, hb⟩ := hs ax hax q hq'
      obtain ⟨gq, hq2⟩ := word64 n9 ho.unit (bq.trans (by norm_num))
      rw [hm.conv, hq2]
      have hgr := (decimalStep_ppm (hc.plain.step ax hax)).2 (r.centre c k ax)
      refine roundTo_exact64 (hc.plain.sane.cfg.ppm_pos ax) (hc.plain.sane.cfg.ppm_le ax)
        (bq.trans (by norm_num)) hb hgr ?_
      rw [sub_self, abs_zero, zero_add]
      have hgo : |(r.centre c k ax : ℝ) / c.ppm.get ax| ≤ |(q : ℝ) * r.unit| + 1 := by
        have e : (r.centre c k ax : ℝ) / c.ppm.get ax =
            q * r.unit - (q * r.unit * c.ppm.get ax - r.centre c k ax) / c.ppm.get ax := by
          field_simp; ring
        rw [e]
        refine (abs_sub _ _).trans (add_le_add le_rfl ?_)
        rw [abs_div, abs_of_pos hP, div_le_iff₀ hP]
        have : (1 : ℝ) / 2 - 1 / 10 ^ 6 ≤ 1 := by norm_num
        linarith
      have h4 := mul_le_mul_of_nonneg_right (hgo.trans (add_le_add bq le_rfl))
        (by norm_num : (0 : ℝ) ≤ 35 / 10 ^ 17)
      refine lt_of_le_of_lt h4 (by norm_num)
    · have e : r.centre c k ax = 0 := by
        unfold Ref.centre
        rw [w2.1 hn]
      rw [get_zeroF, of_round10_zero, round10_of64 grid_zero (by norm_num), e, Int.cast_zero, zero_div]
      exact hz _ (hc.plain.sane.cfg.ppm_pos ax) (hc.plain.sane.cfg.ppm_le ax)
  obtain ⟨k1, k2, k3⟩ := hk
  apply V4.ext_get
  intro ax
  rw [get_roundToStepsF, get_map64]
  cases ax
  · exact key (ax := .x) (by decide) hi k1
  · exact key (ax := .y) (by decide) hj k2
  · exact key (ax := .z) (by decide) hl k3
  · change PyNum.round10 (Coord.roundTo (PyNum.round10 zeroF) _) = F64.of 0
    rw [of_round10_zero]
    exact hz _ (hc.plain.sane.cfg.ppm_pos .e) (hc.plain.sane.cfg.ppm_le .e)

/-- The vector to the end. -/
theorem end_steps64 (hc : FloatMachine c) {s : MState F64} {r : Ref} (ho : RefOk c r)
    (hx : |r.extruded| ≤ 3 * 10 ^ 4) (hm : Matches64 c s r) {g : GCode} {d : V4 F64}
    (hd : readDelta s g = .ok d) {w k : Axis → Option ℚ} (hw : Words g w) (ht : TameWords c r w k) :
    roundToSteps c d = (r.toEnd c w).map F64.of := by
  have hrd := readDelta64 hc ho hx hm hd hw fun ax q => (ht.move ax).1 q
  have hmv := fun ax => (move_dec64 hc (hrd ax).1 (hrd ax).2.2.1 (ht.move ax).2 ht.amount).1
  have hxyz : ∀ ax, ax ≠ .e → dec ((r.go c w ax : ℝ) / c.ppm.get ax) = r.go c w ax / c.ppm.get ax :=
    fun ax hax => by
      rw [← round10_dec]
      exact round10_grid ((decimalStep_ppm (hc.plain.step ax hax)).2 _)
  apply V4.ext_get
  intro ax
  rw [get_map64, hmv ax]
  by_cases hax : ax = .e
  · subst hax; rfl
  · rw [hxyz ax hax, toEnd_get hax]

/-- The check of the table. -/
theorem end_table64 (hc : FloatMachine c) {s : MState F64} {r : Ref} (ho : RefOk c r)
    (hx : |r.extruded| ≤ 3 * 10 ^ 4) (hm : Matches64 c s r) {g : GCode} {d : V4 F64}
    (hd : readDelta s g = .ok d) {w k : Axis → Option ℚ} (hw : Words g w) (ht : TameWords c r w k) :
    (checkDelta c s.pos (roundToSteps c d) = .ok () ↔ StepsOnTable c (r.target c w)) ∧
    ∀ e, checkDelta c s.pos (roundToSteps c d) = .error e → Reported e := by
  have hrd := readDelta64 hc ho hx hm hd hw fun ax q => (ht.move ax).1 q
  have hmv := fun ax => move_dec64 hc (hrd ax).1 (hrd ax).2.2.1 (ht.move ax).2 ht.amount
  have hst := fun ax => (hmv ax).1
  have hP : ∀ ax, (0 : ℝ) < c.ppm.get ax := fun ax => by exact_mod_cast hc.plain.sane.cfg.ppm_pos ax
  have hgd : ∀ ax, Grid (dec ((r.go c w ax : ℝ) / c.ppm.get ax)) := fun ax => by
    rw [← round10_dec]; exact grid_round10 _
  have hxyz : ∀ ax, ax ≠ .e → dec ((r.go c w ax : ℝ) / c.ppm.get ax) = r.go c w ax / c.ppm.get ax :=
    fun ax hax => by
      rw [← round10_dec]
      exact round10_grid ((decimalStep_ppm (hc.plain.step ax hax)).2 _)
  have hat := fun ax => refOk_at hc ho hx ax
  obtain ⟨hck, hrep⟩ := checkDelta64 hc.plain.sane hm.pos hst (fun ax hax => ⟨(hat ax).1, (hat ax).2.2 hax⟩)
    (fun ax hax => ⟨hgd ax, by
      rw [hxyz ax hax]
      have := (hrd ax).2.2.2 hax
      linarith [(hmv ax).2]⟩)
  refine ⟨?_, hrep⟩
  rw [hck]
  unfold StepsOnTable
  refine forall_congr' fun ax => forall_congr' fun hax => ?_
  rw [hxyz ax hax, at_steps hax, ← add_div]
  have e : (r.steps ax : ℝ) + (r.go c w ax : ℝ) = r.target c w ax := by
    unfold Ref.go
    push_cast; ring
  rw [e, div_le_iff₀ (hP ax)]
  refine and_congr_left fun _ => ⟨fun h => ?_, fun h => ?_⟩
  · have : (0 : ℝ) ≤ r.target c w ax := by
      have := mul_nonneg h (hP ax).le
      rwa [div_mul_cancel₀ _ (hP ax).ne'] at this
    exact_mod_cast this
  · have : (0 : ℝ) ≤ r.target c w ax := by exact_mod_cast h
    exact div_nonneg this (hP ax).le

/-- A circular move that passes all checks, on a machine without faults. -/
theorem circ_moves64 (henv : ∀ tr, env.move tr = none) {d r ce : V4 F64} {v : F64}
    {rot : Rot} {s : MState F64} {g : CircGen F64} {lg : Option (LinearGen F64)}
    (h1 : checkDelta c s.pos (roundToSteps c d) = .ok ())
    (h2 : circleEnd c s.plane (roundToSteps c d) (roundToSteps c r) s.pos rot = .ok ce)
    (h3 : CircGen.new c (roundToSteps c ce) (roundToSteps c r) s.plane rot v = .ok g)
    (h4 : checkVelocity c (Gen.circular g).maxVelocity = .ok ())
    (h5 : extraLinear c (Coord.sub (roundToSteps c d) (roundToSteps c ce)) v = .ok lg) :
    moveCircular c env d r v rot s = (.ok (), { s with
      trace := (lg.toList.map fun l => HalCall.move (.linear l)) ++ .move (.circular g) :: s.trace
      pos := Coord.add (Coord.add s.pos (roundToSteps c ce))
            (Coord.sub (roundToSteps c d) (roundToSteps c ce)) }) := by
  rcases moveCircular_cases (c := c) (env := env) d r v rot s with
    ⟨e, _, h | h | ⟨ce', h, h' | ⟨g', h', h'' | h''⟩⟩⟩ | ⟨ce', g', lg', _, k2, k3, _, k5, h⟩
  · rw [h1] at h; cases h
  · rw [h2] at h; cases h
  · rw [h2] at h; cases h; rw [h3] at h'; cases h'
  · rw [h2] at h; cases h; rw [h3] at h'; cases h'; rw [h4] at h''; cases h''
  · rw [h2] at h; cases h; rw [h3] at h'; cases h'; rw [h5] at h''; cases h''
  · rw [h2] at k2; cases k2; rw [h3] at k3; cases k3; rw [h5] at k5; cases k5
    rw [h]
    cases lg
    · simp [halMove, optMove, M.emit, M.get, M.modify, henv, bind, pure, M.bind, M.pure]
    · simp [halMove, optMove, M.emit, M.get, M.modify, henv, bind, pure, M.bind, M.pure]

/-- No straight move is made when the arc ends at its target. -/
theorem extra_none64 (d : V4 F64) (v : F64) : extraLinear c (Coord.sub d d) v = .ok none := by
  have hz : Coord.isZero (Coord.sub d d) = true := by
    rw [isZero64]
    intro ax
    rw [get_subF]
    refine ext64 ?_
    rw [val_zero]
    exact r10_zero (by rw [val_sub, sub_self, fl_zero])
  unfold extraLinear
  rw [if_neg (by simp [hz])]
  rfl

/-- The centre is at least a thousandth of a millimetre away. -/
theorem startDist_ge {r : Ref} {plane : Plane} {k : Axis → Option ℚ} (hc : SaneCfg c)
    (h : HasCentre c r plane k) : 1 / 1000 ≤ startDist plane (r.toCentre c k) := by
  obtain ⟨na, nb, -⟩ := axes_ne_e plane
  have hP : ∀ ax, (0 : ℝ) < c.ppm.get ax := fun ax => by exact_mod_cast hc.ppm_pos ax
  have hP' : ∀ ax, (c.ppm.get ax : ℝ) ≤ 1000 := fun ax => by exact_mod_cast hc.ppm_le ax
  have key : ∀ {ax : Axis}, ax ≠ .e → r.centre c k ax ≠ 0 →
      (1 / 1000) ^ 2 ≤ (r.toCentre c k).get ax ^ 2 := by
    intro ax hax hne
    rw [toCentre_get hax, ← sq_abs ((r.centre c k ax : ℝ) / _)]
    refine pow_le_pow_left₀ (by norm_num) ?_ 2
    have h2 : (1 : ℝ) ≤ |(r.centre c k ax : ℝ)| := by
      rw [← Int.cast_abs]
      exact_mod_cast Int.one_le_abs hne
    rw [abs_div, abs_of_pos (hP _)]
    exact div_le_div₀ (by linarith) h2 (hP _) (hP' _)
  unfold startDist startA startB
  rw [neg_sq, neg_sq]
  refine Real.le_sqrt_of_sq_le ?_
  rcases h with h | h
  · have := key na h
    nlinarith [sq_nonneg ((r.toCentre c k).get (axisB plane))]
  · have := key nb h
    nlinarith [sq_nonneg ((r.toCentre c k).get (axisA plane))]

/-- What the machine does with an arc whose generator exists. -/
theorem arc_moves64 (hc : FloatMachine c) (henv : ∀ tr, env.move tr = none) {s : MState F64} {r : Ref}
    (ho : RefOk c r) (hx : |r.extruded| ≤ 3 * 10 ^ 4) (hm : Matches64 c s r) {g : GCode}
    {d rad : V4 F64} (hd : readDelta s g = .ok d) {w k : Axis → Option ℚ} (hw : Words g w)
    (hr : g.radius Coord.zero s.conv = .ok rad) (hk : CentreWords g k) (ht : TameWords c r w k)
    {rot : Rot} {v : ℝ} (hv : 1 ≤ v) (h1 : StepsOnTable c (r.target c w))
    (h2 : HasCentre c r s.plane k)
    (hcirc : endDist s.plane (r.toEnd c w) (r.toCentre c k) = startDist s.plane (r.toCentre c k))
    (hplace : endA s.plane (r.toEnd c w) (r.toCentre c k) = 0 ∨
      endB s.plane (r.toEnd c w) (r.toCentre c k) = 0 ∨
      (r.go c w (axisA s.plane) = 0 ∧ r.go c w (axisB s.plane) = 0))
    (hin : ∀ ax, ax = axisA s.plane ∨ ax = axisB s.plane →
      startDist s.plane (r.toCentre c k) + 1 / 10 ^ 6 ≤ r.at c ax + (r.toCentre c k).get ax ∧
      r.at c ax + (r.toCentre c k).get ax + startDist s.plane (r.toCentre c k) + 1 / 10 ^ 6 ≤
        tableSize c ax)
    (hsize : startDist s.plane (r.toCentre c k) ≤ 1000)
    (hflat : r.go c w (axis3 s.plane) = 0) (hext : r.go c w .e = 0) {cg : CircGen F64}
    (hg : CircGen.new c ((r.toEnd c w).map F64.of) ((r.toCentre c k).map F64.of) s.plane rot
      (F64.of v) = .ok cg) :
    ∃ p, moveCircular c env d rad (F64.of v) rot s =
        (.ok (), { s with trace := .move (.circular cg) :: s.trace, pos := p }) ∧
      ∀ ax, p.get ax = F64.of (Ref.at c { r with steps := r.target c w } ax) := by
  have hP : ∀ ax, (0 : ℝ) < c.ppm.get ax := fun ax => by exact_mod_cast hc.plain.sane.cfg.ppm_pos ax
  obtain ⟨na, nb, n3⟩ := axes_ne_e s.plane
  have eD := end_steps64 hc ho hx hm hd hw ht
  have eR := centre_steps64 hc ho hm hr hk ht.centre
  have hck := (end_table64 hc ho hx hm hd hw ht).1.2 h1
  have hat := fun ax => refOk_at hc ho hx ax
  have hE : (r.toEnd c w).get .e = 0 := by
    change dec ((r.go c w .e : ℝ) / c.ppm.e) = 0
    rw [hext, Int.cast_zero, zero_div, dec_zero']
  have h3 : (r.toEnd c w).get (axis3 s.plane) = 0 := by
    rw [toEnd_get n3, hflat]; simp
  have hgo : ∀ ax, (r.toEnd c w).get ax = r.go c w ax / c.ppm.get ax := by
    intro ax
    by_cases hax : ax = .e
    · subst hax; rw [hE, hext]; simp
    · exact toEnd_get hax
  have hgrid : ∀ ax, Grid ((r.toEnd c w).get ax) := by
    intro ax
    by_cases hax : ax = .e
    · subst hax; rw [hE]; exact grid_zero
    · rw [hgo]; exact (decimalStep_ppm (hc.plain.step ax hax)).2 _
  have hsz : ∀ ax, |(r.toEnd c w).get ax| ≤ 2000 := by
    have key : ∀ {a b R x y X Y : ℝ}, √(x ^ 2 + y ^ 2) ≤ R → √(X ^ 2 + Y ^ 2) ≤ R → X = x + a →
        Y = y + b → |a| ≤ 2 * R ∧ |b| ≤ 2 * R := by
      intro a b R x y X Y s1 s2 eX eY
      have x1 : |x| ≤ R := (Real.abs_le_sqrt (by nlinarith [sq_nonneg y])).trans s1
      have y1 : |y| ≤ R := (Real.abs_le_sqrt (by nlinarith [sq_nonneg x])).trans s1
      have x2 : |X| ≤ R := (Real.abs_le_sqrt (by nlinarith [sq_nonneg Y])).trans s2
      have y2 : |Y| ≤ R := (Real.abs_le_sqrt (by nlinarith [sq_nonneg X])).trans s2
      constructor
      · have : a = X - x := by linarith
        rw [this]
        exact (abs_sub _ _).trans (by linarith)
      · have : b = Y - y := by linarith
        rw [this]
        exact (abs_sub _ _).trans (by linarith)
    obtain ⟨bA, bB⟩ := key (a := (r.toEnd c w).get (axisA s.plane))
      (b := (r.toEnd c w).get (axisB s.plane)) hsize (hcirc.le.trans hsize)
      (by unfold endA startA; ring) (by unfold endB startB; ring)
    intro ax
    rcases axis_cases s.plane ax with rfl | rfl | rfl | rfl
    · linarith
    · linarith
    · rw [h3]; norm_num
    · rw [hE]; norm_num
  have hin' : ∀ ax, ax = axisA s.plane ∨ ax = axisB s.plane →
      |r.at c ax| ≤ 10 ^ 4 ∧ |(tableSize c ax : ℝ)| ≤ 10 ^ 4 ∧
      startDist s.plane (r.toCentre c k) + 1 / 10 ^ 6 ≤ r.at c ax + (r.toCentre c k).get ax ∧
      r.at c ax + (r.toCentre c k).get ax + startDist s.plane (r.toCentre c k) + 1 / 10 ^ 6 ≤
        tableSize c ax := by
    intro ax hax
    have hne : ax ≠ .e := by
      rcases hax with rfl | rfl
      exacts [na, nb]
    obtain ⟨t0, t1, -⟩ := tableSize_le hc.plain.sane ax
    exact ⟨(hat ax).2.2 hne, by rw [abs_of_nonneg t0]; exact t1, hin ax hax⟩
  obtain ⟨ce, hce, hnear⟩ := circleEnd64 (c := c) (plane := s.plane) (delta := r.toEnd c w)
    (radius := r.toCentre c k) (at_ := r.at c) (pos := s.pos) (rot := rot) hm.pos hcirc (by
      rcases hplace with h | h | ⟨h, h'⟩
      · exact .inl h
      · exact .inr (.inl h)
      · refine .inr (.inr ?_)
        rw [hgo, hgo, h, h']; simp)
    (le_trans (by norm_num) (startDist_ge hc.plain.sane.cfg h2)) hsize hin'
  have hid : roundToSteps c ce = (r.toEnd c w).map F64.of := by
    apply V4.ext_get
    intro ax
    rw [get_map64]
    have hb : |(ce.get ax).1 - (r.toEnd c w).get ax| ≤ 1 / 10 ^ 8 := by
      rcases hnear ax with h | h
      · exact h
      · rw [h]
        exact (of_near ((hsz ax).trans (by norm_num))).trans (by norm_num)
    exact roundEnd64 hc.plain.sane.cfg hb le_rfl ((hsz ax).trans (by norm_num)) (hgo ax) (hgrid ax)
  have hv0 : 0 ≤ (F64.of v).1 := by rw [val_of]; exact fl_nonneg (by linarith)
  have hvel := arcVelocity64 hc.plain.sane.cfg hc.plain.limits hc.fast
    (arcLimit64 hc.plain.sane.cfg hc.plain.limits hc.fast hc.plain.auto
      (by rw [get_map64, h3, val_of, fl_zero])
      (by
        change (((r.toEnd c w).map F64.of).get .e).1 = 0
        rw [get_map64, hE, val_of, fl_zero]) hv0 hg)
  have hmv := circ_moves64 (c := c) (env := env) henv (d := d) (r := rad) (ce := ce) (v := F64.of v)
    (rot := rot) (s := s) (g := cg) (lg := none) hck (by rw [eD, eR]; exact hce)
    (by rw [hid, eR]; exact hg) hvel (by rw [hid, eD]; exact extra_none64 _ _)
  refine ⟨_, hmv, fun ax => ?_⟩
  have hb1 := (hat ax).2.1
  have hb2 := hsz ax
  have hb3 : |r.at c ax + (r.toEnd c w).get ax| ≤ 10 ^ 5 := (abs_add_le _ _).trans (by linarith)
  have gz : Grid (r.at c ax + (r.toEnd c w).get ax) := (hat ax).1.add (hgrid ax)
  rw [get_addF, get_addF, get_subF, hid, eD, get_map64, hm.pos,
    add64 (hat ax).1 (hgrid ax) (hb1.trans (by norm_num)) (hb2.trans (by norm_num)),
    sub64 (hgrid ax) (hgrid ax) (hb2.trans (by norm_num)) (hb2.trans (by norm_num)), sub_self,
    add64 gz grid_zero hb3 (by norm_num), add_zero]
  congr 1
  by_cases hax : ax = .e
  · subst hax
    rw [hE, add_zero]
    rfl
  · rw [hgo, at_steps hax, at_steps hax, ← add_div]
    unfold Ref.go
    push_cast
    congr 1; ring

/-- An arc. -/
theorem arc_refstep64 (hc : FloatMachine c) (henv : ∀ tr, env.move tr = none) {s : MState F64}
    {r : Ref} (ho : RefOk c r) (hx : |r.extruded| ≤ 3 * 10 ^ 4) (hm : Matches64 c s r) {g : GCode}
    {d rad : V4 F64} (hd : readDelta s g = .ok d) {w k : Axis → Option ℚ} (hw : Words g w)
    (hr : g.radius Coord.zero s.conv = .ok rad) (hk : CentreWords g k) (ht : TameWords c r w k)
    {rot : Rot} {v : ℝ} (hv : 1 ≤ v)
    (hR : StepsOnTable c (r.target c w) → HasCentre c r s.plane k → FloatArc c r s.plane rot w k v) :
    (StepsOnTable c (r.target c w) ∧ HasCentre c r s.plane k →
      ∃ s', moveCircular c env d rad (F64.of v) rot s = (.ok (), s') ∧
        Matches64 c s' { r with steps := r.target c w } ∧ s'.plane = s.plane) ∧
    (¬ (StepsOnTable c (r.target c w) ∧ HasCentre c r s.plane k) →
      ∃ e, Reported e ∧ moveCircular c env d rad (F64.of v) rot s = (.error e, s)) := by
  have hP : ∀ ax, (0 : ℝ) < c.ppm.get ax := fun ax => by exact_mod_cast hc.plain.sane.cfg.ppm_pos ax
  obtain ⟨na, nb, n3⟩ := axes_ne_e s.plane
  obtain ⟨hck, hrep⟩ := end_table64 hc ho hx hm hd hw ht
  constructor
  · rintro ⟨h1, h2⟩
    have hF := hR h1 h2
    have hE : (r.toEnd c w).get .e = 0 := by
      change dec ((r.go c w .e : ℝ) / c.ppm.e) = 0
      rw [hF.right.extruder, Int.cast_zero, zero_div, dec_zero']
    have h3 : (r.toEnd c w).get (axis3 s.plane) = 0 := by
      rw [toEnd_get n3, hF.flat]; simp
    obtain ⟨cg, evs, hg, hem, hnet⟩ := Props.C90_arc_partial hc.plain.sane.cfg
      (right_ordinary hc.plain hF.right h2 hv) hF.same hF.exact hF.size ⟨h3, hE⟩ hF.radius (by
        intro ax hax n hn
        have hne : ax ≠ .e := by
          rcases hax with rfl | rfl
          exacts [na, nb]
        rw [toCentre_get hne, onSteps_div (hP _)] at hn
        have : r.centre c k ax = n := by exact_mod_cast hn
        rw [← this]
        exact hF.centre ax hax) hF.right.ahead rot
    obtain ⟨p, hmv, hp⟩ := arc_moves64 hc henv ho hx hm hd hw hr hk ht hv h1 h2 hF.right.circle hF.place
      hF.inside hF.right.size hF.flat hF.right.extruder hg
    refine ⟨_, hmv, ⟨hp, ?_, hm.loc, hm.conv, hm.mode, hm.vel⟩, rfl⟩
    obtain ⟨evs0, hev, hn⟩ := hm.motors
    refine ⟨_, .move hem hev, fun ax => ?_⟩
    rw [netSteps_append (emits_announced hem (List.prefix_refl _)), hn]
    have hgo : (r.toEnd c w).get ax * c.ppm.get ax = r.go c w ax := by
      by_cases hax : ax = .e
      · subst hax; rw [hE, hF.right.extruder]; simp
      · rw [toEnd_get hax, onSteps_div (hP _)]
    have hnet' : netSteps c ax evs = r.go c w ax := by
      have := hnet ax
      rw [hgo] at this
      exact_mod_cast this
    rw [hnet']
    unfold Ref.go
    dsimp only
    ring
  · intro hn
    by_cases h1 : StepsOnTable c (r.target c w)
    · have h2 : ¬ HasCentre c r s.plane k := fun h => hn ⟨h1, h⟩
      unfold HasCentre at h2
      push Not at h2
      have hz : circleEnd c s.plane (roundToSteps c d) (roundToSteps c rad) s.pos rot =
          .error (.gmachine "circle radius is zero") := by
        rw [centre_steps64 hc ho hm hr hk ht.centre]
        refine circleEnd_zero64 ⟨?_, ?_⟩
        · rw [get_map64, toCentre_get na, h2.1, Int.cast_zero, zero_div, ← of_zero]
        · rw [get_map64, toCentre_get nb, h2.2, Int.cast_zero, zero_div, ← of_zero]
      refine ⟨.gmachine "circle radius is zero", trivial, ?_⟩
      rcases moveCircular_cases (c := c) (env := env) d rad (F64.of v) rot s with
        ⟨e, h0, h | h | ⟨ce, h, _⟩⟩ | ⟨ce, g, lg, _, h, _⟩
      · rw [hck.2 h1] at h; cases h
      · rw [hz] at h; cases h; exact h0
      · rw [hz] at h; cases h
      · rw [hz] at h; cases h
    · rcases hd' : checkDelta c s.pos (roundToSteps c d) with e | ⟨⟩
      · refine ⟨e, hrep e hd', ?_⟩
        simp [moveCircular, hd']
      · exact absurd (hck.1 hd') h1

/-- A line with good numbers: it is refused for its feed, or its command is executed. -/
theorem numbers_cases64 (hc : FloatMachine c) {s : MState F64} {r : ArcRef} (ho : RefOk c r.base)
    (hm : ArcMatches64 c s r) {g : GCode} {l : ArcLine} (hn : NumbersOk g) (hf : WordIs g 'F' l.feed)
    (ht : ∀ q, l.feed = some q → NineDigits q) :
    Grid (r.feedOf l) ∧
    ∃ d rad, readDelta s g = .ok d ∧ g.radius Coord.zero s.conv = .ok rad ∧
      ((r.feedOf l < c.minVel ∧
        doCommand c env (some g) s = (.error (.gmachine "feed speed too low"), s)) ∨
       (¬ r.feedOf l < c.minVel ∧ 1 ≤ r.feedOf l ∧
        ((∃ a s', execCmd c env (lineCmd g) g d rad (F64.of (r.feedOf l)) s = (.ok a, s') ∧
          doCommand c env (some g) s = (.ok a, { s' with vel := F64.of (r.feedOf l) })) ∨
         (∃ e s', execCmd c env (lineCmd g) g d rad (F64.of (r.feedOf l)) s = (.error e, s') ∧
          doCommand c env (some g) s = (.error e, s'))))) := by
  have hfv : g.get 'F' s.vel (PyNum.ofRat 1) = .ok (F64.of (r.feedOf l)) :=
    feed_ok64 (l := ⟨.other, l.feed⟩) hm.base hf
  have hfg : Grid (r.feedOf l) := by
    unfold ArcRef.feedOf
    split
    · exact ho.feed
    · rename_i q hq; exact decimalQ_nine (ht q hq)
  have hmin1 : (1 : ℝ) ≤ c.minVel := by exact_mod_cast hc.plain.sane.minVel
  have hmin2 : (c.minVel : ℝ) ≤ 10 ^ 5 := by exact_mod_cast hc.slow.1
  have hming : Grid (c.minVel : ℝ) := decimalQ_grid hc.slow.2
  have hcmp : (F64.of (r.feedOf l) <ₚ PyNum.ofRat c.minVel) = true ↔ r.feedOf l < c.minVel := by
    rw [lt64_iff, val_ofRat, val_of]
    constructor
    · intro h
      by_contra hc0
      exact absurd (fl_mono (not_lt.1 hc0)) (not_le.2 h)
    · intro h
      have h1 := grid_gap hfg hming h
      have one : Grid ((1 : ℝ) / 10 ^ 10) := ⟨1, by rw [e10_val]; norm_num⟩
      have h2 := (lt_of64 (x := c.minVel - 1 / 10 ^ 10) (y := c.minVel) (hming.sub one) hming (by
        have : (0 : ℝ) ≤ c.minVel - 1 / 10 ^ 10 := by
          have : (1 : ℝ) / 10 ^ 10 ≤ 1 := by norm_num
          linarith
        rw [abs_of_nonneg this]
        have : (0 : ℝ) ≤ 1 / 10 ^ 10 := by norm_num
        linarith) (by rw [abs_of_nonneg (by linarith)]; exact hmin2)).2 (by
          have : (0 : ℝ) < 1 / 10 ^ 10 := by norm_num
          linarith)
      rw [lt64_iff, val_of, val_of] at h2
      exact lt_of_le_of_lt (fl_mono (by linarith)) h2
  refine ⟨hfg, ?_⟩
  rcases doCommand_cases (c := c) (env := env) g s with ⟨e', h1, h2⟩ | ⟨d, v, rad, hd, hv, hr, hx⟩
  · exfalso
    rcases h2 with h2 | h2 | h2
    · obtain ⟨_, k, t, h3, h4⟩ := readDelta_error h2
      exact absurd h4 (hn _ (mem_of_lookup h3))
    · rw [hfv] at h2; cases h2
    · obtain ⟨_, k, t, h3, h4⟩ := radius_error h2
      exact absurd h4 (hn _ (mem_of_lookup h3))
  rw [hfv] at hv
  cases hv
  refine ⟨d, rad, hd, hr, ?_⟩
  rcases hx with ⟨hlt, h⟩ | ⟨hmin, hx⟩
  · rw [hcmp] at hlt
    exact .inl ⟨hlt, h⟩
  · rw [← Bool.not_eq_true, hcmp] at hmin
    exact .inr ⟨hmin, hmin1.trans (not_lt.1 hmin), hx⟩

/-- One line. -/
theorem arcLine_matches64 (hc : FloatMachine c) (henv : ∀ tr, env.move tr = none) {s : MState F64}
    {r : ArcRef} (ho : RefOk c r.base) (hm : ArcMatches64 c s r) {g : GCode} {l : ArcLine}
    (hg : ArcSays g l) (ht : TameArc c r l) :
    (∀ r', r.step c l = some r' → ∃ a s', doCommand c env (some g) s = (.ok a, s') ∧
      ArcMatches64 c s' r' ∧ RefOk c r'.base) ∧
    (r.step c l = none → ∃ e, Reported e ∧ doCommand c env (some g) s = (.error e, s)) := by
  obtain ⟨st, f⟩ := l
  cases st with
  | plain st =>
    obtain ⟨hg, hno⟩ := hg
    have htm := ht.plain st rfl
    obtain ⟨k1, k2⟩ := line_matches64 (m := 9999) hc (carries_of henv) ho hm.base hg htm
      (fun w hw => by exact_mod_cast htm.amount w hw)
    change (∀ r', ((r.base.step c ⟨st, f⟩).map fun b => { r with base := b }) = some r' → _) ∧
      (((r.base.step c ⟨st, f⟩).map fun b => { r with base := b }) = none → _)
    cases hb : r.base.step c ⟨st, f⟩ with
    | none => exact ⟨fun r' h => by simp at h, fun _ => k2 hb⟩
    | some b =>
      obtain ⟨a, s', h1, h2, h3, -⟩ := k1 b hb
      refine ⟨fun r' h => ?_, fun h => by simp at h⟩
      cases h
      refine ⟨a, s', h1, ⟨h2, ?_⟩, h3⟩
      by_contra hpl
      obtain ⟨p, hp, hi⟩ := (Props.C19_only_own_commands c env g s s' _ h1).1
        fun h => hpl (h.trans hm.plane)
      have hM : p.1 ≠ 'M' := by
        intro h
        rcases says_g hg with h' | h'
        · exact h' (hi.2 h)
        · have := hi.1
          rw [h, h'] at this
          cases this
      simp only [List.mem_cons, List.not_mem_nil, or_false] at hp
      rcases hp with rfl | rfl | rfl | rfl | rfl
      · exact hno ⟨_, by simp, hi⟩
      · exact hno ⟨_, by simp, hi⟩
      · exact hno ⟨_, by simp, hi⟩
      · exact hM rfl
      · exact hM rfl
  | plane p =>
    obtain ⟨hn, hf, hg⟩ := hg
    obtain ⟨hfg, d, rad, hd, hr, hx⟩ :=
      numbers_cases64 (env := env) (l := ⟨.plane p, f⟩) hc ho hm hn hf ht.feed
    have hstep : r.step c ⟨.plane p, f⟩ = open Classical in
      if r.feedOf ⟨.plane p, f⟩ < c.minVel then none
      else some { base := { r.base with feed := r.feedOf ⟨.plane p, f⟩ }, plane := p } := rfl
    rw [hstep]
    rcases hx with ⟨hlt, h⟩ | ⟨hmin, -, hx⟩
    · rw [if_pos hlt]
      exact ⟨fun r' h' => by simp at h', fun _ => ⟨.gmachine _, trivial, h⟩⟩
    · rw [if_neg hmin]
      refine ⟨fun r' h' => ?_, fun h' => by simp at h'⟩
      cases h'
      have hex : execCmd c env (lineCmd g) g d rad (F64.of (r.feedOf ⟨.plane p, f⟩)) s =
          (.ok none, { s with plane := p }) := by
        cases p
        · rw [is_lineCmd (cmd := .g17) ⟨_, List.mem_singleton_self _, hg⟩]; rfl
        · rw [is_lineCmd (cmd := .g18) ⟨_, List.mem_singleton_self _, hg⟩]; rfl
        · rw [is_lineCmd (cmd := .g19) ⟨_, List.mem_singleton_self _, hg⟩]; rfl
      rcases hx with ⟨a, s', h5, h6⟩ | ⟨e', s', h5, h6⟩
      · rw [hex] at h5; cases h5
        have hb := hm.base
        exact ⟨_, _, h6, ⟨⟨hb.pos, hb.motors, hb.loc, hb.conv, hb.mode, rfl⟩, rfl⟩,
          ⟨ho.table, ho.extruded, ho.origin, ho.unit, hfg⟩⟩
      · rw [hex] at h5; cases h5
  | arc rot w k =>
    obtain ⟨hn, hf, hg, hw, hk⟩ := hg
    obtain ⟨hfg, d, rad, hd, hr, hx⟩ :=
      numbers_cases64 (env := env) (l := ⟨.arc rot w k, f⟩) hc ho hm hn hf ht.feed
    have hstep : r.step c ⟨.arc rot w k, f⟩ = open Classical in
      if ¬ r.feedOf ⟨.arc rot w k, f⟩ < c.minVel ∧ StepsOnTable c (r.base.target c w) ∧
          HasCentre c r.base r.plane k then
        some { r with base := { r.base with
          steps := r.base.target c w, feed := r.feedOf ⟨.arc rot w k, f⟩ } }
      else none := rfl
    have ha' := ht.right rot w k rfl
    rw [hstep] at ha' ⊢
    rcases hx with ⟨hlt, h⟩ | ⟨hmin, hv1, hx⟩
    · rw [if_neg (fun h => h.1 hlt)]
      exact ⟨fun r' h' => by simp at h', fun _ => ⟨.gmachine _, trivial, h⟩⟩
    · obtain ⟨k1, k2⟩ := arc_refstep64 hc henv ho ht.extruded hm.base hd hw hr hk
        (ht.words rot w k rfl) (rot := rot) hv1 (by
          intro h1 h2
          rw [hm.plane] at h2 ⊢
          exact ha' (by rw [if_pos ⟨hmin, h1, h2⟩]; simp))
      rw [hm.plane] at k1 k2
      have hex : execCmd c env (lineCmd g) g d rad (F64.of (r.feedOf ⟨.arc rot w k, f⟩)) s =
          (do moveCircular c env d rad (F64.of (r.feedOf ⟨.arc rot w k, f⟩)) rot
              return none : M F64 (Option (Answer F64))) s := by
        cases rot
        · rw [is_lineCmd (cmd := .g2) ⟨_, List.mem_singleton_self _, hg⟩]; rfl
        · rw [is_lineCmd (cmd := .g3) ⟨_, List.mem_singleton_self _, hg⟩]; rfl
      rw [hex] at hx
      by_cases hok : StepsOnTable c (r.base.target c w) ∧ HasCentre c r.base r.plane k
      · rw [if_pos ⟨hmin, hok⟩]
        refine ⟨fun r' h' => ?_, fun h' => by simp at h'⟩
        cases h'
        obtain ⟨s1, h1, h2, h4⟩ := k1 hok
        have h5 := M.bind_ok (f := fun _ => (pure none : M F64 (Option (Answer F64)))) h1
        rcases hx with ⟨a, s', h6, h7⟩ | ⟨e', s', h6, h7⟩
        · rw [h5] at h6; cases h6
          exact ⟨_, _, h7, ⟨⟨h2.pos, h2.motors, h2.loc, h2.conv, h2.mode, rfl⟩, h4⟩,
            ⟨hok.1, ho.extruded, ho.origin, ho.unit, hfg⟩⟩
        · rw [h5] at h6; cases h6
      · rw [if_neg (fun h => hok h.2)]
        refine ⟨fun r' h' => by simp at h', fun _ => ?_⟩
        obtain ⟨e, h1, h2⟩ := k2 hok
        have h5 := M.bind_error (f := fun _ => (pure none : M F64 (Option (Answer F64)))) h2
        rcases hx with ⟨a, s', h6, h7⟩ | ⟨e', s', h6, h7⟩
        · rw [h5] at h6; cases h6
        · rw [h5] at h6; cases h6
          exact ⟨e, h1, h7⟩

/-- A program. -/
theorem arcProgram_matches64 [PyText] (hc : FloatMachine c) (henv : ∀ tr, env.move tr = none)
    (prog : List (List Char × ArcLine))
    (hp : ∀ p ∈ prog, ∃ g, parseLine p.1 = .ok (some g) ∧ ArcSays g p.2) :
    ∀ {s : MState F64} {r : ArcRef}, RefOk c r.base → ArcMatches64 c s r →
      TameArcs c r (prog.map (·.2)) →
      ∃ s', machineRun c env s (prog.map (·.1)) = some ((r.run c (prog.map (·.2))).1, s') ∧
        ArcMatches64 c s' (r.run c (prog.map (·.2))).2 ∧ RefOk c (r.run c (prog.map (·.2))).2.base := by
  induction prog with
  | nil => exact fun ho hm _ => ⟨_, rfl, hm, ho⟩
  | cons p ps ih =>
    intro s r ho hm hx
    obtain ⟨hx1, hx2⟩ := hx
    obtain ⟨g, hpar, hg⟩ := hp p (by simp)
    obtain ⟨k1, k2⟩ := arcLine_matches64 hc henv ho hm hg hx1
    have ih' := @ih (fun q hq => hp q (by simp [hq]))
    simp only [List.map_cons, machineRun, ArcRef.run]
    cases hr : r.step c p.2 with
    | none =>
      obtain ⟨e, he, h⟩ := k2 hr
      have hl : doLine c env p.1 s = (.ok (.error e), s) := by
        unfold doLine
        rw [hpar]
        simp only [h]
        unfold Reported at he
        unfold catchLine
        split at he <;> simp_all
      simp only [hl]
      obtain ⟨s', h1, h2⟩ := ih' ho hm (by rw [hr] at hx2; exact hx2)
      exact ⟨s', by rw [h1]; rfl, h2⟩
    | some r' =>
      obtain ⟨a, s1, h, h', h''⟩ := k1 r' hr
      have hl : doLine c env p.1 s = (.ok (.ok a), s1) := by
        unfold doLine
        rw [hpar]
        simp only [h]
      simp only [hl]
      obtain ⟨s', h1, h2⟩ := ih' h'' h' (by rw [hr] at hx2; exact hx2)
      exact ⟨s', by rw [h1]; rfl, h2⟩

end PyCNC
