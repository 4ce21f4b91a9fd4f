import Verif.Lemmas.ArcAny64

/-!
# Arcs whose ends are not on their circles: lines and programs in binary64
-/

set_option linter.unusedSectionVars false

namespace PyCNC

open Spec

variable [PyRound] {c : Cfg} {env : Env F64}

/-- How an arc ends without exception of the hardware. -/
theorem moveCircular_whole64 (henv : ∀ tr, env.move tr = none) (d r : V4 F64) (v : F64) (rot : Rot)
    (s : MState F64) :
    (∃ e, moveCircular c env d r v rot s = (.error e, s)) ∨
    ∃ ce g lg, checkDelta c s.pos (roundToSteps c d) = .ok () ∧
      circleEnd c s.plane (roundToSteps c d) (roundToSteps c r) s.pos rot = .ok ce ∧
      CircGen.new c (roundToSteps c ce) (roundToSteps c r) s.plane rot v = .ok g ∧
      extraLinear c (Coord.sub (roundToSteps c d) (roundToSteps c ce)) v = .ok lg ∧
      moveCircular c env d r v rot s = (.ok (), { s with
        pos := Coord.add (Coord.add s.pos (roundToSteps c ce))
          (Coord.sub (roundToSteps c d) (roundToSteps c ce))
        trace := match lg with
          | none => .move (.circular g) :: s.trace
          | some l => .move (.linear l) :: .move (.circular g) :: s.trace }) := by
  rcases moveCircular_cases (c := c) (env := env) d r v rot s with ⟨e, h', _⟩ |
    ⟨ce, g, lg, h1, h2, h3, _, h5, h'⟩
  · exact .inl ⟨e, h'⟩
  · right
    refine ⟨ce, g, lg, h1, h2, h3, h5, ?_⟩
    rcases arcMoves_cases (env := env) g lg (fun s : MState F64 => { s with
        pos := Coord.add (Coord.add s.pos (roundToSteps c ce))
          (Coord.sub (roundToSteps c d) (roundToSteps c ce)) }) s with ⟨e, s2, _, ⟨tr, h4⟩, _⟩ |
      ⟨s2, hs2, h4, _⟩
    · rw [henv] at h4; cases h4
    · rw [h', h4, hs2]
      cases lg <;> rfl

/-- The straight move after the arc makes the steps that are missing. -/
theorem rest_steps64 (hc : SaneCfg c) {n : V4 ℤ} {w : V4 F64} {v : F64} (hv : 1 ≤ v.1)
    (hs : Steps64 c n w) {lg : Option (LinearGen F64)} (h : extraLinear c w v = .ok lg) :
    (lg = none ∧ ∀ ax, n.get ax = 0) ∨ ∃ l evs, lg = some l ∧ Emits c (.linear l) evs ∧
      ∀ ax, netSteps c ax evs = n.get ax := by
  have hP : ∀ ax, (0 : ℝ) < c.ppm.get ax := fun ax => by exact_mod_cast hc.ppm_pos ax
  have hP2 : ∀ ax, (c.ppm.get ax : ℝ) ≤ 1000 := fun ax => by exact_mod_cast hc.ppm_le ax
  unfold extraLinear at h
  cases hz : Coord.isZero w
  · rw [hz] at h
    simp only [Bool.not_false, if_true] at h
    obtain ⟨l, h1, h⟩ := bindE_ok h
    obtain ⟨_, h2, h⟩ := bindE_ok h
    cases h
    right
    have hne : ∃ ax, n.get ax ≠ 0 := by
      by_contra hcon
      push Not at hcon
      have : Coord.isZero w = true := (isZero64 w).2 fun ax => ext64 (by
        rw [hs.zero ax (hcon ax), val_zero])
      rw [hz] at this
      cases this
    obtain ⟨l', hl', hgood⟩ := linear64_new hc hs hne hv
    rw [h1] at hl'
    cases hl'
    obtain ⟨evs, hem⟩ := linear64_done hgood
    exact ⟨l, evs, rfl, hem, train64 hc hs h1 hem⟩
  · rw [hz] at h
    simp only [Bool.not_true, Bool.false_eq_true, if_false] at h
    cases h
    refine .inl ⟨rfl, fun ax => ?_⟩
    have h1 := (isZero64 w).1 hz ax
    have h2 := hs.near ax
    rw [h1, val_zero, zero_sub, abs_neg, abs_div, abs_of_pos (hP ax), div_le_iff₀ (hP ax)] at h2
    have h3 : |(n.get ax : ℝ)| < 1 := by
      have := mul_le_mul_of_nonneg_left (hP2 ax) (by norm_num : (0 : ℝ) ≤ 2 / 10 ^ 10)
      have e : (2 : ℝ) / 10 ^ 10 * 1000 < 1 := by norm_num
      linarith
    rw [← Int.cast_abs] at h3
    exact Int.abs_lt_one_iff.1 (by exact_mod_cast h3)

theorem toEnd_table64 (hc : FloatMachine c) {r : Ref} (ho : RefOk c r) {w : Axis → Option ℚ}
    (h1 : StepsOnTable c (r.target c w)) : ∀ ax, ax ≠ .e → |(r.toEnd c w).get ax| ≤ tableSize c ax := by
  have hP : ∀ ax, (0 : ℝ) < c.ppm.get ax := fun ax => by exact_mod_cast hc.plain.sane.cfg.ppm_pos ax
  intro ax hax
  have b1 := h1 ax hax
  have b2 := ho.table ax hax
  have b3 : (0 : ℝ) ≤ r.target c w ax := by exact_mod_cast b1.1
  have b4 : (0 : ℝ) ≤ r.steps ax := by exact_mod_cast b2.1
  rw [toEnd_get hax, abs_div, abs_of_pos (hP _), div_le_iff₀ (hP _), abs_le]
  unfold Ref.go
  push_cast
  constructor <;> linarith [b1.2, b2.2]

/-- What is left to the straight move after the arc. -/
theorem aside_rest64 (hc : FloatMachine c) {r : Ref} (ho : RefOk c r) {plane : Plane} {rot : Rot}
    {w k : Axis → Option ℚ} {v : ℝ} (h1 : StepsOnTable c (r.target c w)) (hFA : AsideArc c r plane w k)
    {E : V4 ℝ} (hE : AsideEnd c r plane w k rot v E) :
    (∀ ax, Grid ((r.toEnd c w).get ax)) ∧ (∀ ax, |E.get ax| ≤ 10 ^ 4) ∧
    (∀ ax, |(r.toEnd c w).get ax - E.get ax| ≤ 10 ^ 4) ∧
    (∀ ax, (Coord.sub ((r.toEnd c w).map F64.of) (E.map F64.of)).get ax =
      F64.of ((r.toEnd c w).get ax - E.get ax)) ∧
    ∃ (N : Axis → ℤ) (n : V4 ℤ), (∀ ax, E.get ax = N ax / c.ppm.get ax) ∧
      (∀ ax, n.get ax = r.go c w ax - N ax) ∧
      Steps64 c n (Coord.sub ((r.toEnd c w).map F64.of) (E.map F64.of)) := by
  have hP : ∀ ax, (0 : ℝ) < c.ppm.get ax := fun ax => by exact_mod_cast hc.plain.sane.cfg.ppm_pos ax
  obtain ⟨na, nb, n3⟩ := axes_ne_e plane
  have htab := toEnd_table64 hc ho h1
  have htab' : ∀ ax, ax ≠ .e → |(r.toEnd c w).get ax| ≤ 10 ^ 4 := fun ax hax =>
    (htab ax hax).trans (tableSize_le hc.plain.sane ax).2.1
  have hDn := toEnd_steps hc.plain hFA.extruder (w := w)
  have hDg : ∀ ax, Grid ((r.toEnd c w).get ax) := by
    intro ax
    by_cases hax : ax = .e
    · subst hax
      have : (r.toEnd c w).get .e = 0 := toEnd_e hFA.extruder
      rw [this]; exact grid_zero
    · rw [toEnd_get hax]; exact (decimalStep_ppm (hc.plain.step ax hax)).2 _
  have hD3 : (r.toEnd c w).get (axis3 plane) = 0 := by rw [toEnd_get n3, hFA.flat]; simp
  have hDe : (r.toEnd c w).get .e = 0 := toEnd_e hFA.extruder
  have four : ∀ {C : Axis → Prop}, C (axisA plane) → C (axisB plane) → C (axis3 plane) → C .e →
      ∀ ax, C ax := by
    intro C h1 h2 h3 h4 ax
    rcases axis_cases plane ax with rfl | rfl | rfl | rfl <;> assumption
  have hDl : ∀ ax, |(r.toEnd c w).get ax| ≤ 10 ^ 4 :=
    four (htab' _ na) (htab' _ nb) (htab' _ n3) (by rw [hDe]; norm_num)
  have hR0 : 0 ≤ startDist plane (r.toCentre c k) := Real.sqrt_nonneg _
  have hEl : ∀ ax, |E.get ax| ≤ 10 ^ 4 := by
    have hsz := hFA.size
    refine four ((hE.near _ (.inl rfl)).trans ?_) ((hE.near _ (.inr rfl)).trans ?_) (by rw [hE.third]; norm_num)
      (by rw [hE.extruder]; norm_num) <;>
    · have : (3000 : ℝ) ≤ 10 ^ 4 := by norm_num
      linarith
  have hrl : ∀ ax, |(r.toEnd c w).get ax - E.get ax| ≤ 10 ^ 4 := by
    have key : ∀ ax, ax ≠ .e → ax = axisA plane ∨ ax = axisB plane →
        |(r.toEnd c w).get ax - E.get ax| ≤ 10 ^ 4 := fun ax hax hab =>
      (abs_sub _ _).trans (by linarith [htab ax hax, hE.near ax hab, hFA.table ax hab])
    exact four (key _ na (.inl rfl)) (key _ nb (.inr rfl)) (by rw [hD3, hE.third]; norm_num)
      (by rw [hDe, hE.extruder]; norm_num)
  have hsub : Coord.sub ((r.toEnd c w).map F64.of) (E.map F64.of) =
      V4.map F64.of ⟨(r.toEnd c w).x - E.x, (r.toEnd c w).y - E.y, (r.toEnd c w).z - E.z,
        (r.toEnd c w).e - E.e⟩ := by
    refine V4.ext_get fun ax => ?_
    rw [get_subF, get_map64, get_map64, get_map64,
      sub64 (hDg ax) (hE.grid ax) ((hDl ax).trans (by norm_num)) ((hEl ax).trans (by norm_num))]
    cases ax <;> rfl
  choose N hN using hE.steps
  have hn4 : ∀ ax, (⟨r.go c w .x - N .x, r.go c w .y - N .y, r.go c w .z - N .z, r.go c w .e - N .e⟩ :
      V4 ℤ).get ax = r.go c w ax - N ax := by intro ax; cases ax <;> rfl
  have hrem : ∀ ax, ((r.go c w ax - N ax : ℤ) : ℝ) / c.ppm.get ax = (r.toEnd c w).get ax - E.get ax := by
    intro ax
    rw [hN ax, Int.cast_sub, sub_div, ← hDn ax, mul_div_assoc, div_self (hP ax).ne', mul_one]
  have hgs : ∀ ax, (Coord.sub ((r.toEnd c w).map F64.of) (E.map F64.of)).get ax =
      F64.of ((r.toEnd c w).get ax - E.get ax) := by
    intro ax
    rw [hsub, get_map64]
    cases ax <;> rfl
  have hst : Steps64 c ⟨r.go c w .x - N .x, r.go c w .y - N .y, r.go c w .z - N .z, r.go c w .e - N .e⟩
      (Coord.sub ((r.toEnd c w).map F64.of) (E.map F64.of)) := by
    refine ⟨fun ax => ?_, fun ax h0 => ?_, fun ax => ?_⟩
    · rw [hn4, hgs, hrem]
      exact (of_near ((hrl ax).trans (by norm_num))).trans (by norm_num)
    · rw [hn4] at h0
      rw [hgs, ← hrem, h0, Int.cast_zero, zero_div, val_of, fl_zero]
    · rw [hn4]
      have := hrl ax
      rw [← hrem, abs_div, abs_of_pos (hP ax), div_le_iff₀ (hP ax)] at this
      exact this
  exact ⟨hDg, hEl, hrl, hgs, N, _, hN, hn4, hst⟩

/-- An arc. -/
theorem aside_refstep64 (hc : FloatMachine c) (henv : ∀ tr, env.move tr = none) {s : MState F64}
    {r : Ref} (ho : RefOk c r) (hx : |r.extruded| ≤ 3 * 10 ^ 4) (hm : Matches64 c s r) {g : GCode}
    {d rad : V4 F64} (hd : readDelta s g = .ok d) {w k : Axis → Option ℚ} (hw : Words g w)
    (hr : g.radius Coord.zero s.conv = .ok rad) (hk : CentreWords g k) (ht : TameWords c r w k)
    {rot : Rot} {v : ℝ} (hv : 1 ≤ v)
    (hF : StepsOnTable c (r.target c w) → HasCentre c r s.plane k → AsideArc c r s.plane w k) :
    (∃ e, moveCircular c env d rad (F64.of v) rot s = (.error e, s)) ∨
    (StepsOnTable c (r.target c w) ∧ HasCentre c r s.plane k ∧
      ∃ s', moveCircular c env d rad (F64.of v) rot s = (.ok (), s') ∧
        Matches64 c s' { r with steps := r.target c w } ∧ s'.plane = s.plane) := by
  have hP : ∀ ax, (0 : ℝ) < c.ppm.get ax := fun ax => by exact_mod_cast hc.plain.sane.cfg.ppm_pos ax
  obtain ⟨na, nb, n3⟩ := axes_ne_e s.plane
  have hck := (end_table64 hc ho hx hm hd hw ht).1
  have eD := end_steps64 hc ho hx hm hd hw ht
  have eR := centre_steps64 hc ho hm hr hk ht.centre
  have hat := fun ax => refOk_at hc ho hx ax
  rcases moveCircular_whole64 henv d rad (F64.of v) rot s with h | ⟨ce, cg, lg, h1, hce, hg, hlg, hmv⟩
  · exact .inl h
  right
  have h1 := hck.1 h1
  rw [eD, eR] at hce
  rw [eR] at hg
  rw [eD] at hlg hmv
  have h2 : HasCentre c r s.plane k := by
    by_contra hn
    unfold HasCentre at hn
    push Not at hn
    rw [circleEnd_zero64 ⟨by rw [get_map64, toCentre_get na, hn.1, Int.cast_zero, zero_div, ← of_zero],
      by rw [get_map64, toCentre_get nb, hn.2, Int.cast_zero, zero_div, ← of_zero]⟩] at hce
    cases hce
  have hFA := hF h1 h2
  have htab := toEnd_table64 hc ho h1
  have htab' : ∀ ax, ax ≠ .e → |(r.toEnd c w).get ax| ≤ 10 ^ 4 := fun ax hax =>
    (htab ax hax).trans (tableSize_le hc.plain.sane ax).2.1
  obtain ⟨E, hEq, hE⟩ := aside_end64 hc hv hFA htab' hce
  rw [hEq] at hg hlg hmv
  have hord := hE.ordinary (hE.ends hg)
  obtain ⟨hDg, hEl, hrl, hgs, N, n, hN, hn4, hst⟩ := aside_rest64 hc ho h1 hFA hE
  have hDe : (r.toEnd c w).get .e = 0 := toEnd_e hFA.extruder
  have hv1 : 1 ≤ (F64.of v).1 := by
    rw [val_of, ← fl_one]; exact fl_mono hv
  have hrest := rest_steps64 hc.plain.sane.cfg hv1 hst hlg
  obtain ⟨cg', evs, hg', hem, hnet⟩ := Props.C90_arc_partial hc.plain.sane.cfg hord hFA.same hFA.exact hFA.steps
    ⟨hE.third, hE.extruder⟩ hFA.radius (by
      intro ax hax n hn
      have hne : ax ≠ .e := by
        rcases hax with rfl | rfl
        exacts [na, nb]
      rw [toCentre_get hne, onSteps_div (hP _)] at hn
      have : r.centre c k ax = n := by exact_mod_cast hn
      rw [← this]
      exact hFA.centre ax hax) hE.ahead rot
  rw [hg] at hg'
  cases hg'
  have hnet' : ∀ ax, netSteps c ax evs = N ax := by
    intro ax
    have := hnet ax
    rw [hN ax, div_mul_cancel₀ _ (hP ax).ne'] at this
    exact_mod_cast this
  obtain ⟨evs0, hev, hn0⟩ := hm.motors
  refine ⟨h1, h2, _, hmv, ⟨fun ax => ?_, ?_, hm.loc, hm.conv, hm.mode, hm.vel⟩, rfl⟩
  · dsimp only
    have hb1 := (hat ax).2.1
    have hb3 : |r.at c ax + E.get ax| ≤ 10 ^ 5 := (abs_add_le _ _).trans (by
      have := hEl ax
      norm_num at *
      linarith)
    rw [get_addF, get_addF, hgs, get_map64, hm.pos,
      add64 (hat ax).1 (hE.grid ax) (hb1.trans (by norm_num)) ((hEl ax).trans (by norm_num)),
      add64 ((hat ax).1.add (hE.grid ax)) ((hDg ax).sub (hE.grid ax)) hb3 ((hrl ax).trans (by norm_num))]
    congr 1
    by_cases hax : ax = .e
    · subst hax
      rw [hE.extruder, hDe]
      change r.extruded + 0 + (0 - 0) = r.extruded
      ring
    · rw [toEnd_get hax, at_steps hax, at_steps hax]
      unfold Ref.go
      push_cast
      ring
  · rcases hrest with ⟨rfl, hz⟩ | ⟨l, evs2, rfl, hem2, hnet2⟩
    · refine ⟨_, .move hem hev, fun ax => ?_⟩
      rw [netSteps_append (emits_announced hem (List.prefix_refl _)), hn0, hnet']
      have := hz ax
      rw [hn4] at this
      unfold Ref.go at this
      dsimp only
      omega
    · refine ⟨_, .move hem2 (.move hem hev), fun ax => ?_⟩
      rw [netSteps_append (emits_announced hem2 (List.prefix_refl _)),
        netSteps_append (emits_announced hem (List.prefix_refl _)), hn0, hnet', hnet2, hn4]
      unfold Ref.go
      dsimp only
      omega

/-- The end of an arc that ends on a horizontal or vertical line through its centre is found. -/
theorem adjust_accept64 {xa xb ya yb pa pb ta tb : ℝ} {rot : Rot}
    (hp : xa = ya ∨ (xb = yb ∧ 1 / 1000 ≤ |xa - ya|)) (h0 : ¬ (xa = 0 ∧ xb = 0))
    (hR : 1 / 10 ^ 4 ≤ √(ya ^ 2 + yb ^ 2)) (hR' : √(ya ^ 2 + yb ^ 2) ≤ 1000) (sx : |xa| ≤ 10 ^ 4)
    (sa : |pa| ≤ 10 ^ 4 ∧ |ta| ≤ 10 ^ 4) (sb : |pb| ≤ 10 ^ 4 ∧ |tb| ≤ 10 ^ 4)
    (h1 : √(ya ^ 2 + yb ^ 2) + 1 / 10 ^ 6 ≤ pa + ya)
    (h2 : pa + ya + √(ya ^ 2 + yb ^ 2) + 1 / 10 ^ 6 ≤ ta)
    (h3 : √(ya ^ 2 + yb ^ 2) + 1 / 10 ^ 6 ≤ pb + yb)
    (h4 : pb + yb + √(ya ^ 2 + yb ^ 2) + 1 / 10 ^ 6 ≤ tb) :
    ∃ q, adjustCircle (F64.of xa) (F64.of xb) (F64.of ya) (F64.of yb) rot (F64.of pa)
      (F64.of pb) (F64.of ta) (F64.of tb) = .ok q := by
  have hyp := hypot64 (ya := ya) (yb := yb)
  have sya : |ya| ≤ √(ya ^ 2 + yb ^ 2) := Real.abs_le_sqrt (by nlinarith [sq_nonneg yb])
  have syb : |yb| ≤ √(ya ^ 2 + yb ^ 2) := Real.abs_le_sqrt (by nlinarith [sq_nonneg ya])
  set R := √(ya ^ 2 + yb ^ 2) with hRd
  set r : F64 := PyNum.sqrt (F64.of ya *ₚ F64.of ya +ₚ F64.of yb *ₚ F64.of yb) with hrd
  have hr : |r.1 - R| ≤ 1 / 10 ^ 9 := by
    rw [hrd, val_sqrt, val_add, val_mul, val_mul, val_of, val_of]
    refine hyp.trans ?_
    have := mul_le_mul_of_nonneg_right hR' (by norm_num : (0 : ℝ) ≤ 1 / 10 ^ 13)
    norm_num at *
    linarith
  have hr0 : 0 < r.1 := by
    have := (abs_le.1 hr).1
    norm_num at *
    linarith
  have near : ∀ {x : ℝ}, |x| ≤ 10 ^ 4 → |(F64.of x).1 - x| ≤ 12 / 10 ^ 12 := fun h =>
    of_near (h.trans (by norm_num))
  have nxa := near (x := xa) sx
  have nya := near (x := ya) (sya.trans (hR'.trans (by norm_num)))
  have nyb := near (x := yb) (syb.trans (hR'.trans (by norm_num)))
  have fit : ∀ eq q pq, fitLoop rot eq (F64.of pa) (F64.of pb) (F64.of ya) (F64.of yb) r (F64.of ta)
      (F64.of tb) 4 q pq = .ok () := fun eq q pq =>
    fit_inside64 (near sa.1) (near sb.1) nya nyb hr (near sa.2) (near sb.2) ⟨sa.1, sya.trans hR'⟩
      ⟨sb.1, syb.trans hR'⟩ ⟨by linarith [abs_nonneg ya], hR'⟩ h1 h2 h3 h4 4 q pq
  have hrne : (r =ₚ zeroF) = false := by
    rw [← Bool.not_eq_true, eq64_iff, val_zero]; exact hr0.ne'
  have hsame : ∀ x : F64, (x -ₚ x) = zeroF := fun x => ext64 (by rw [val_sub, sub_self, fl_zero, val_zero])
  have hrr : PyNum.sqrt (r *ₚ r) = r := ext64 (by
    rw [val_sqrt, val_mul, fl_sqrt_sq r.2, abs_of_pos hr0])
  unfold adjustCircle
  rw [← hrd]
  simp only [hrne, Bool.false_eq_true, if_false]
  have e1 : (F64.of xa =ₚ zeroF && F64.of xb =ₚ zeroF) = false := by
    rw [← Bool.not_eq_true, Bool.and_eq_true, eq_zero64, eq_zero64]; exact h0
  simp only [e1, Bool.false_eq_true, if_false]
  by_cases ha : xa = ya
  · have hz : ((F64.of xa -ₚ F64.of ya) =ₚ (zeroF : F64)) = true := by
      rw [ha, hsame]; exact (eq64_iff _ _).2 rfl
    simp only [hz, if_true]
    have hq : r *ₚ r -ₚ (zeroF : F64) *ₚ zeroF = r *ₚ r := ext64 (by
      rw [val_sub, val_mul zeroF, val_zero, mul_zero, fl_zero, sub_zero]; exact (r *ₚ r).2)
    have hsq : psqrt (r *ₚ r) = .ok r := by
      rw [psqrt64_ok (by rw [val_mul]; exact fl_nonneg (mul_self_nonneg _)), hrr]
    refine ⟨(zeroF +ₚ F64.of ya, copysign r (F64.of xb -ₚ F64.of yb) +ₚ F64.of yb), ?_⟩
    simp only [pure_bind, hq, hsq]
    change (fitLoop _ _ _ _ _ _ _ _ _ _ _ _ >>= _) = _
    rw [fit]
    rfl
  · obtain ⟨hb, hgap⟩ : xb = yb ∧ 1 / 1000 ≤ |xa - ya| := hp.resolve_left ha
    have hds := diff64 (m := 20000) nxa nya (by norm_num at *; linarith)
    have hne : (F64.of xa -ₚ F64.of ya).1 ≠ 0 := by
      intro h
      rw [h, zero_sub, abs_neg] at hds
      norm_num at *
      linarith
    have hz : ((F64.of xa -ₚ F64.of ya) =ₚ (zeroF : F64)) = false := by
      rw [← Bool.not_eq_true, eq64_iff, val_zero]; exact hne
    simp only [hz, Bool.false_eq_true, if_false]
    have hb0 : F64.of xb -ₚ F64.of yb = zeroF := by rw [hb, hsame]
    have hq1 : r *ₚ r /ₚ (PyNum.ofRat 1 +ₚ PyNum.abs (zeroF /ₚ (F64.of xa -ₚ F64.of ya))) = r *ₚ r :=
      ext64 (by
        have : fl ((1 : ℚ) : ℝ) = 1 := by simp [fl_one]
        rw [val_div, val_add, val_abs, val_div, val_zero, val_ofRat, this, zero_div, fl_zero, abs_zero,
          add_zero, fl_one, div_one]
        exact (r *ₚ r).2)
    have hq2 : r *ₚ r -ₚ copysign r (F64.of xa -ₚ F64.of ya) *ₚ copysign r (F64.of xa -ₚ F64.of ya) =
        zeroF := ext64 (by
      rw [val_sub, val_mul, val_mul, ← abs_mul_abs_self (copysign r _).1, copysign_abs,
        abs_mul_abs_self, sub_self, fl_zero, val_zero])
    have hsq : psqrt (zeroF : F64) = .ok zeroF := by
      rw [psqrt64_ok (by rw [val_zero])]
      exact congrArg _ (ext64 (by rw [val_sqrt, val_zero, Real.sqrt_zero, fl_zero]))
    have hcz : copysign (zeroF : F64) zeroF = zeroF := by
      unfold copysign
      rw [if_neg (by rw [lt64_iff, val_zero, val_ofRat0]; exact lt_irrefl _)]
    refine ⟨(copysign r (F64.of xa -ₚ F64.of ya) +ₚ F64.of ya, zeroF +ₚ F64.of yb), ?_⟩
    simp only [hb0, pdiv64_ok hne]
    have okb : ∀ {α β : Type} (x : α) (f : α → Except PyErr β), (Except.ok x >>= f) = f x :=
      fun _ _ => rfl
    simp only [okb, pure_bind, hq1, hrr, hq2, hsq, hcz]
    change (fitLoop _ _ _ _ _ _ _ _ _ _ _ _ >>= _) = _
    rw [fit]
    rfl

theorem circleEnd_accept64 {plane : Plane} {delta radius : V4 ℝ} {at_ : Axis → ℝ} {pos : V4 F64} {rot : Rot}
    (hpos : ∀ ax, pos.get ax = F64.of (at_ ax))
    (hp : endA plane delta radius = 0 ∨ (endB plane delta radius = 0 ∧ 1 / 1000 ≤ |endA plane delta radius|))
    (h0 : ¬ (delta.get (axisA plane) = 0 ∧ delta.get (axisB plane) = 0))
    (hR : 1 / 10 ^ 4 ≤ startDist plane radius) (hR' : startDist plane radius ≤ 1000)
    (hs : ∀ ax, ax = axisA plane ∨ ax = axisB plane →
      |delta.get ax| ≤ 10 ^ 4 ∧ |at_ ax| ≤ 10 ^ 4 ∧ |(tableSize c ax : ℝ)| ≤ 10 ^ 4 ∧
      startDist plane radius + 1 / 10 ^ 6 ≤ at_ ax + radius.get ax ∧
      at_ ax + radius.get ax + startDist plane radius + 1 / 10 ^ 6 ≤ tableSize c ax) :
    ∃ ce, circleEnd c plane (delta.map F64.of) (radius.map F64.of) pos rot = .ok ce := by
  have hsq : ∀ ra rb : ℝ, √((-ra) ^ 2 + (-rb) ^ 2) = √(ra ^ 2 + rb ^ 2) := fun ra rb => by
    rw [neg_sq, neg_sq]
  obtain ⟨a0, a1, a2, a3, a4⟩ := hs _ (.inl rfl)
  obtain ⟨b0, b1, b2, b3, b4⟩ := hs _ (.inr rfl)
  have px := hpos .x
  have py := hpos .y
  have pz := hpos .z
  have e1 : ∀ q : ℚ, (PyNum.ofRat q : F64) = F64.of (q : ℝ) := fun q => rfl
  unfold circleEnd
  cases plane <;>
    simp only [startDist, endA, endB, startA, startB, axisA, axisB, V4.get, hsq, sub_eq_zero,
      tableSize] at hp h0 hR hR' a0 a1 a2 a3 a4 b0 b1 b2 b3 b4 px py pz
  · obtain ⟨q, h⟩ := adjust_accept64 (rot := rot) hp h0 hR hR' a0 ⟨a1, a2⟩ ⟨b1, b2⟩ a3 a4 b3 b4
    exact ⟨_, by simp only [V4.map, e1, px, py, h]; rfl⟩
  · obtain ⟨q, h⟩ := adjust_accept64 (rot := rot) hp h0 hR hR' a0 ⟨a1, a2⟩ ⟨b1, b2⟩ a3 a4 b3 b4
    exact ⟨_, by simp only [V4.map, e1, px, pz, h]; rfl⟩
  · obtain ⟨q, h⟩ := adjust_accept64 (rot := rot) hp h0 hR hR' a0 ⟨a1, a2⟩ ⟨b1, b2⟩ a3 a4 b3 b4
    exact ⟨_, by simp only [V4.map, e1, py, pz, h]; rfl⟩

/-- The straight move after the arc is not refused. -/
theorem rest_accept64 (hc : FloatMachine c) {n : V4 ℤ} {w : V4 F64} {v : F64} (hv : 1 ≤ v.1)
    (hs : Steps64 c n w) : ∃ lg, extraLinear c w v = .ok lg := by
  unfold extraLinear
  cases hz : Coord.isZero w
  · simp only [Bool.not_false, if_true]
    have hne : ∃ ax, n.get ax ≠ 0 := by
      by_contra hcon
      push Not at hcon
      have : Coord.isZero w = true := (isZero64 w).2 fun ax => ext64 (by
        rw [hs.zero ax (hcon ax), val_zero])
      rw [hz] at this
      cases this
    obtain ⟨l, hl, -⟩ := linear64_new hc.plain.sane.cfg hs hne hv
    have hvel := checkVelocity64 hc.plain.sane.cfg hc.plain.limits hc.fast
      (limit64 hc.plain.sane.cfg hc.plain.limits hc.fast hc.plain.auto hs hne hv hl)
    have okb : ∀ {α β : Type} (x : α) (f : α → Except PyErr β), (Except.ok x >>= f) = f x := fun _ _ => rfl
    exact ⟨some l, by rw [hl, okb, hvel, okb]; rfl⟩
  · exact ⟨none, by simp; rfl⟩

/-- An arc that is certainly carried out. -/
theorem aside_accept64 (hc : FloatMachine c) (henv : ∀ tr, env.move tr = none) {s : MState F64}
    {r : Ref} (ho : RefOk c r) (hx : |r.extruded| ≤ 3 * 10 ^ 4) (hm : Matches64 c s r) {g : GCode}
    {d rad : V4 F64} (hd : readDelta s g = .ok d) {w k : Axis → Option ℚ} (hw : Words g w)
    (hr : g.radius Coord.zero s.conv = .ok rad) (hk : CentreWords g k) (ht : TameWords c r w k)
    {rot : Rot} {v : ℝ} (hv : 1 ≤ v) (h1 : StepsOnTable c (r.target c w)) (h2 : HasCentre c r s.plane k)
    (hFA : AsideArc c r s.plane w k) (hA : AxisEnd64 c r s.plane w k) :
    ∃ s', moveCircular c env d rad (F64.of v) rot s = (.ok (), s') := by
  have hP : ∀ ax, (0 : ℝ) < c.ppm.get ax := fun ax => by exact_mod_cast hc.plain.sane.cfg.ppm_pos ax
  have hP2 : ∀ ax, (c.ppm.get ax : ℝ) ≤ 1000 := fun ax => by
    exact_mod_cast hc.plain.sane.cfg.ppm_le ax
  obtain ⟨na, nb, n3⟩ := axes_ne_e s.plane
  have hck := (end_table64 hc ho hx hm hd hw ht).1.2 h1
  have eD := end_steps64 hc ho hx hm hd hw ht
  have eR := centre_steps64 hc ho hm hr hk ht.centre
  have hat := fun ax => refOk_at hc ho hx ax
  have htab' : ∀ ax, ax ≠ .e → |(r.toEnd c w).get ax| ≤ 10 ^ 4 := fun ax hax =>
    (toEnd_table64 hc ho h1 ax hax).trans (tableSize_le hc.plain.sane ax).2.1
  obtain ⟨ce, hce⟩ := circleEnd_accept64 (c := c) (plane := s.plane) (delta := r.toEnd c w)
    (radius := r.toCentre c k) (at_ := r.at c) (pos := s.pos) (rot := rot) hm.pos (by
      by_cases hz : endA s.plane (r.toEnd c w) (r.toCentre c k) = 0
      · exact .inl hz
      · refine .inr ⟨hA.aligned.resolve_left hz, ?_⟩
        have e : endA s.plane (r.toEnd c w) (r.toCentre c k) * c.ppm.get (axisA s.plane) =
            ((r.go c w (axisA s.plane) - r.centre c k (axisA s.plane) : ℤ) : ℝ) := by
          rw [endA, sub_mul, toEnd_get na, toCentre_get na, onSteps_div (hP _), onSteps_div (hP _)]
          push_cast; ring
        have hn : r.go c w (axisA s.plane) - r.centre c k (axisA s.plane) ≠ 0 := by
          intro h
          rw [h, Int.cast_zero] at e
          exact hz ((mul_eq_zero.1 e).resolve_right (hP _).ne')
        have h5 : (1 : ℝ) ≤ |endA s.plane (r.toEnd c w) (r.toCentre c k)| * c.ppm.get (axisA s.plane) := by
          rw [← abs_of_pos (hP (axisA s.plane)), ← abs_mul, e, ← Int.cast_abs]
          exact_mod_cast Int.one_le_abs hn
        have h6 := mul_le_mul_of_nonneg_left (hP2 (axisA s.plane))
          (abs_nonneg (endA s.plane (r.toEnd c w) (r.toCentre c k)))
        linarith) (by
      rintro ⟨zA, zB⟩
      apply hFA.other
      simp only [startA, startB, endA, endB, zA, zB, zero_sub])
    (le_trans (by norm_num) (startDist_ge hc.plain.sane.cfg h2)) hFA.size (by
      intro ax hax
      have hne : ax ≠ .e := by
        rcases hax with rfl | rfl
        exacts [na, nb]
      obtain ⟨t0, t1, -⟩ := tableSize_le hc.plain.sane ax
      exact ⟨htab' ax hne, (hat ax).2.2 hne, by rw [abs_of_nonneg t0]; exact t1, hA.inside ax hax⟩)
  obtain ⟨E, hEq, hE⟩ := aside_end64 hc hv hFA htab' hce
  obtain ⟨-, -, -, -, N, n, hN, -, hst⟩ := aside_rest64 hc ho h1 hFA hE
  have hends : PyRound.rnd (endDist s.plane E (r.toCentre c k) * c.ppm.get (axisA s.plane)) =
      PyRound.rnd (startDist s.plane (r.toCentre c k) * c.ppm.get (axisA s.plane)) := by
    congr 1
    obtain ⟨m, hmm⟩ := hA.whole
    have hdist := hE.dist
    have zero : ∀ {x y : ℝ}, SameSign x y → y = 0 → x = 0 := by
      rintro x y (⟨h1, h2⟩ | ⟨h1, h2⟩ | ⟨h1, h2⟩) hy
      · linarith
      · linarith
      · exact h1
    have eA : endA s.plane E (r.toCentre c k) * c.ppm.get (axisA s.plane) =
        ((N (axisA s.plane) - r.centre c k (axisA s.plane) : ℤ) : ℝ) := by
      rw [endA, sub_mul, hN, toCentre_get na, onSteps_div (hP _), onSteps_div (hP _)]
      push_cast; ring
    have eB : endB s.plane E (r.toCentre c k) * c.ppm.get (axisA s.plane) =
        ((N (axisB s.plane) - r.centre c k (axisB s.plane) : ℤ) : ℝ) := by
      rw [hFA.same, endB, sub_mul, hN, toCentre_get nb, onSteps_div (hP _), onSteps_div (hP _)]
      push_cast; ring
    have hint : ∃ j : ℤ, endDist s.plane E (r.toCentre c k) * c.ppm.get (axisA s.plane) = j := by
      unfold endDist
      rcases hA.aligned with h | h
      · refine ⟨|N (axisB s.plane) - r.centre c k (axisB s.plane)|, ?_⟩
        rw [zero hE.signA h, Int.cast_abs, ← eB, abs_mul, abs_of_pos (hP _)]
        norm_num [Real.sqrt_sq_eq_abs]
      · refine ⟨|N (axisA s.plane) - r.centre c k (axisA s.plane)|, ?_⟩
        rw [zero hE.signB h, Int.cast_abs, ← eA, abs_mul, abs_of_pos (hP _)]
        norm_num [Real.sqrt_sq_eq_abs]
    obtain ⟨j, hj⟩ := hint
    rw [hj, hmm] at hdist ⊢
    have : |j - m| < 1 := by
      have h5 : ((|j - m| : ℤ) : ℝ) < 1 := by
        rw [Int.cast_abs, Int.cast_sub]
        linarith
      exact_mod_cast h5
    rw [sub_eq_zero.1 (Int.abs_lt_one_iff.1 this)]
  obtain ⟨cg, evs, hg, -, -⟩ := Props.C90_arc_partial hc.plain.sane.cfg (hE.ordinary hends) hFA.same hFA.exact
    hFA.steps ⟨hE.third, hE.extruder⟩ hFA.radius (by
      intro ax hax n hn
      have hne : ax ≠ .e := by
        rcases hax with rfl | rfl
        exacts [na, nb]
      rw [toCentre_get hne, onSteps_div (hP _)] at hn
      have : r.centre c k ax = n := by exact_mod_cast hn
      rw [← this]
      exact hFA.centre ax hax) hE.ahead rot
  have hv1 : 1 ≤ (F64.of v).1 := by
    rw [val_of, ← fl_one]; exact fl_mono hv
  obtain ⟨lg, hlg⟩ := rest_accept64 hc hv1 hst
  have hvel := arcVelocity64 hc.plain.sane.cfg hc.plain.limits hc.fast
    (arcLimit64 hc.plain.sane.cfg hc.plain.limits hc.fast hc.plain.auto
      (by rw [get_map64, hE.third, val_of, fl_zero])
      (by
        change ((E.map F64.of).get .e).1 = 0
        rw [get_map64, hE.extruder, val_of, fl_zero]) (by linarith) hg)
  exact ⟨_, circ_moves64 (c := c) (env := env) henv (d := d) (r := rad) (ce := ce) (v := F64.of v)
    (rot := rot) (s := s) (g := cg) (lg := lg) hck (by rw [eD, eR]; exact hce)
    (by rw [hEq, eR]; exact hg) hvel (by rw [hEq, eD]; exact hlg)⟩

/-- One line. -/
theorem anyLine_matches64 (hc : FloatMachine c) (henv : ∀ tr, env.move tr = none) {s : MState F64}
    {r : ArcRef} (ho : RefOk c r.base) (hm : ArcMatches64 c s r) {g : GCode} {l : ArcLine}
    (hg : ArcSays g l) (ht : TameAny c r l) :
    (∃ r' a s', r.step c l = some r' ∧ doCommand c env (some g) s = (.ok a, s') ∧
      ArcMatches64 c s' r' ∧ RefOk c r'.base) ∨
    ((r.step c l = none ∨ SaysArc l) ∧ ∃ e, doCommand c env (some g) s = (.error e, s)) := by
  by_cases hT : ∀ rot w k, l.stmt = .arc rot w k → r.step c l ≠ none →
      FloatArc c r.base r.plane rot w k (r.feedOf l)
  · obtain ⟨k1, k2⟩ := arcLine_matches64 hc henv ho hm hg ⟨ht.feed, ht.plain, ht.words, hT, ht.extruded⟩
    cases hr : r.step c l with
    | none =>
      obtain ⟨e, -, h⟩ := k2 hr
      exact .inr ⟨.inl rfl, e, h⟩
    | some r' =>
      obtain ⟨a, s', h1, h2, h3⟩ := k1 r' hr
      exact .inl ⟨r', a, s', rfl, h1, h2, h3⟩
  · push Not at hT
    obtain ⟨rot, w, k, hl, hne, hnot⟩ := hT
    have hA : AsideArc c r.base r.plane w k := (ht.right rot w k hl hne).resolve_left hnot
    obtain ⟨st, f⟩ := l
    simp only at hl
    subst hl
    obtain ⟨hn, hf, hg, hw, hk⟩ := hg
    obtain ⟨hfg, d, rad, hd, hr, hx⟩ :=
      numbers_cases64 (env := env) (l := ⟨.arc rot w k, f⟩) hc ho hm hn hf ht.feed
    have hstep : r.step c ⟨.arc rot w k, f⟩ = open Classical in
      if ¬ r.feedOf ⟨.arc rot w k, f⟩ < c.minVel ∧ StepsOnTable c (r.base.target c w) ∧
          HasCentre c r.base r.plane k then
        some { r with base := { r.base with
          steps := r.base.target c w, feed := r.feedOf ⟨.arc rot w k, f⟩ } }
      else none := rfl
    have hsay : SaysArc ⟨.arc rot w k, f⟩ := ⟨rot, w, k, rfl⟩
    rcases hx with ⟨hlt, h⟩ | ⟨hmin, hv1, hx⟩
    · exact .inr ⟨.inr hsay, _, h⟩
    · have key := aside_refstep64 hc henv ho ht.extruded hm.base hd hw hr hk (ht.words rot w k rfl)
        (rot := rot) hv1 (by
          intro _ _
          rw [hm.plane]
          exact hA)
      have hex : execCmd c env (lineCmd g) g d rad (F64.of (r.feedOf ⟨.arc rot w k, f⟩)) s =
          (do moveCircular c env d rad (F64.of (r.feedOf ⟨.arc rot w k, f⟩)) rot
              return none : M F64 (Option (Answer F64))) s := by
        cases rot
        · rw [is_lineCmd (cmd := .g2) ⟨_, List.mem_singleton_self _, hg⟩]; rfl
        · rw [is_lineCmd (cmd := .g3) ⟨_, List.mem_singleton_self _, hg⟩]; rfl
      rw [hex] at hx
      rcases key with ⟨e, h2⟩ | ⟨hok1, hok2, s1, h1, h2, h4⟩
      · refine .inr ⟨.inr hsay, ?_⟩
        have h5 := M.bind_error (f := fun _ => (pure none : M F64 (Option (Answer F64)))) h2
        rcases hx with ⟨a, s', h6, h7⟩ | ⟨e', s', h6, h7⟩
        · rw [h5] at h6; cases h6
        · rw [h5] at h6; cases h6
          exact ⟨e, h7⟩
      · left
        rw [hm.plane] at hok2
        have h5 := M.bind_ok (f := fun _ => (pure none : M F64 (Option (Answer F64)))) h1
        rcases hx with ⟨a, s', h6, h7⟩ | ⟨e', s', h6, h7⟩
        · rw [h5] at h6; cases h6
          exact ⟨{ r with base := { r.base with
              steps := r.base.target c w, feed := r.feedOf ⟨.arc rot w k, f⟩ } }, _, _,
            by rw [hstep, if_pos ⟨hmin, hok1, hok2⟩], h7,
            ⟨⟨h2.pos, h2.motors, h2.loc, h2.conv, h2.mode, rfl⟩, h4.trans hm.plane⟩,
            ⟨hok1, ho.extruded, ho.origin, ho.unit, hfg⟩⟩
        · rw [h5] at h6; cases h6

/-- One line with an arc that is carried out. -/
theorem axisLine_accepted64 (hc : FloatMachine c) (henv : ∀ tr, env.move tr = none) {s : MState F64}
    {r r' : ArcRef} (ho : RefOk c r.base) (hm : ArcMatches64 c s r) {g : GCode} {l : ArcLine}
    (hg : ArcSays g l) (ht : TameAny c r l) {rot : Rot} {w k : Axis → Option ℚ} (hl : l.stmt = .arc rot w k)
    (hst : r.step c l = some r') (hFA : AsideArc c r.base r.plane w k)
    (ha : AxisEnd64 c r.base r.plane w k) :
    ∃ a s', doCommand c env (some g) s = (.ok a, s') ∧ ArcMatches64 c s' r' ∧ RefOk c r'.base := by
  rcases anyLine_matches64 hc henv ho hm hg ht with ⟨r1, a, s1, h1, h2, h3, h4⟩ | ⟨-, e, h2⟩
  · rw [hst] at h1
    cases h1
    exact ⟨a, s1, h2, h3, h4⟩
  · exfalso
    obtain ⟨st, f⟩ := l
    simp only at hl
    subst hl
    obtain ⟨hn, hf, hg, hw, hk⟩ := hg
    obtain ⟨hfg, d, rad, hd, hr, hx⟩ :=
      numbers_cases64 (env := env) (l := ⟨.arc rot w k, f⟩) hc ho hm hn hf ht.feed
    have hstep : r.step c ⟨.arc rot w k, f⟩ = open Classical in
      if ¬ r.feedOf ⟨.arc rot w k, f⟩ < c.minVel ∧ StepsOnTable c (r.base.target c w) ∧
          HasCentre c r.base r.plane k then
        some { r with base := { r.base with
          steps := r.base.target c w, feed := r.feedOf ⟨.arc rot w k, f⟩ } }
      else none := rfl
    rw [hstep] at hst
    split at hst
    · next hcond =>
      rcases hx with ⟨hlt, h⟩ | ⟨hmin, hv1, hx⟩
      · exact hcond.1 hlt
      · obtain ⟨s1, key⟩ := aside_accept64 hc henv ho ht.extruded hm.base hd hw hr hk (ht.words rot w k rfl)
          (rot := rot) hv1 hcond.2.1 (by rw [hm.plane]; exact hcond.2.2) (by rw [hm.plane]; exact hFA)
          (by rw [hm.plane]; exact ha)
        have hex : execCmd c env (lineCmd g) g d rad (F64.of (r.feedOf ⟨.arc rot w k, f⟩)) s =
            (do moveCircular c env d rad (F64.of (r.feedOf ⟨.arc rot w k, f⟩)) rot
                return none : M F64 (Option (Answer F64))) s := by
          cases rot
          · rw [is_lineCmd (cmd := .g2) ⟨_, List.mem_singleton_self _, hg⟩]; rfl
          · rw [is_lineCmd (cmd := .g3) ⟨_, List.mem_singleton_self _, hg⟩]; rfl
        have h5 := M.bind_ok (f := fun _ => (pure none : M F64 (Option (Answer F64)))) key
        rw [hex, h5] at hx
        rcases hx with ⟨a, s', h6, h7⟩ | ⟨e', s', h6, h7⟩
        · rw [h2] at h7; cases h7
        · cases h6
    · cases hst

/-- A program. -/
theorem anyProgram_matches64 [PyText] (hc : FloatMachine c) (henv : ∀ tr, env.move tr = none)
    (prog : List (List Char × ArcLine))
    (hp : ∀ p ∈ prog, ∃ g, parseLine p.1 = .ok (some g) ∧ ArcSays g p.2) :
    ∀ {s : MState F64} {r : ArcRef} {fl : List Bool} {s' : MState F64}, RefOk c r.base →
      ArcMatches64 c s r → TameAnys c r (prog.map (·.2)) →
      machineRun c env s (prog.map (·.1)) = some (fl, s') →
      ∃ r', Follows c r (prog.map (·.2)) fl r' ∧ ArcMatches64 c s' r' ∧ RefOk c r'.base := by
  induction prog with
  | nil =>
    intro s r fl s' ho hm _ h
    cases h
    exact ⟨r, .nil, hm, ho⟩
  | cons p ps ih =>
    intro s r fl s' ho hm hx h
    obtain ⟨hx1, hx3, hx4⟩ := hx
    obtain ⟨g, hpar, hg⟩ := hp p (by simp)
    have ih' := @ih (fun q hq => hp q (by simp [hq]))
    simp only [List.map_cons, machineRun] at h
    rcases anyLine_matches64 hc henv ho hm hg hx1 with ⟨r1, a, s1, h1, h2, h3, h4⟩ | ⟨h1, e, h2⟩
    · have hl : doLine c env p.1 s = (.ok (.ok a), s1) := by
        unfold doLine
        rw [hpar]
        simp only [h2]
      simp only [hl] at h
      cases hrun : machineRun c env s1 (ps.map (·.1)) with
      | none => rw [hrun] at h; cases h
      | some q =>
        rw [hrun] at h
        cases h
        obtain ⟨r', k1, k2⟩ := ih' h4 h3 (hx3 _ h1) hrun
        exact ⟨r', .done h1 k1, k2⟩
    · have hl : (∃ e', doLine c env p.1 s = (.error e', s)) ∨ doLine c env p.1 s = (.ok (.error e), s) := by
        unfold doLine
        rw [hpar]
        simp only [h2]
        unfold catchLine
        split <;> simp
      rcases hl with ⟨e', hl⟩ | hl
      · simp only [hl] at h; cases h
      · simp only [hl] at h
        cases hrun : machineRun c env s (ps.map (·.1)) with
        | none => rw [hrun] at h; cases h
        | some q =>
          rw [hrun] at h
          cases h
          obtain ⟨r', k1, k2⟩ := ih' ho hm (hx4 h1) hrun
          exact ⟨r', .not h1 k1, k2⟩

end PyCNC
