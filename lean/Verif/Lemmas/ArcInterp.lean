import Verif.Spec.ArcInterp
import Verif.Lemmas.Interp
import Verif.Props.Head
import Verif.Props.ArcEnd
import Verif.Props.Modal

/-!
# The machine and the reference interpreter with arcs
-/

set_option linter.unusedSectionVars false

namespace PyCNC

open Spec

variable [PyRound] {c : Cfg} {env : Env ℝ}

/-- The vector to the centre. -/
theorem radius_steps (hc : PlainMachine c) {s : MState ℝ} {r : Ref} (hm : Matches c s r) {g : GCode}
    {rad : V4 ℝ} (hr : g.radius Coord.zero s.conv = .ok rad) {k : Axis → Option ℚ}
    (hk : CentreWords g k) : roundToSteps c rad = r.toCentre c k := by
  unfold GCode.radius at hr
  obtain ⟨i, hi, hr⟩ := bindE_ok hr
  obtain ⟨j, hj, hr⟩ := bindE_ok hr
  obtain ⟨l, hl, hr⟩ := bindE_ok hr
  cases hr
  have key : ∀ {ax : Axis} {ch : Char} {x : ℝ}, ax ≠ .e → g.get ch (0 : ℝ) s.conv = .ok x →
      WordIs g ch (k ax) → (PyRound.rnd (PyNum.round10 x * c.ppm.get ax) : ℝ) =
        r.centre c k ax := by
    intro ax ch x hax h hw
    obtain ⟨w1, w2⟩ := word_iff hw
    unfold Ref.centre
    rcases get_ok h with ⟨q, hq, rfl⟩ | ⟨hn, rfl⟩
    · rw [(w1 q).1 hq, round10_dec, hm.conv]; rfl
    · rw [w2.1 hn, round10_zero, zero_mul, rnd_zero]
  have hz : (Coord.zero : V4 ℝ).x = 0 ∧ (Coord.zero : V4 ℝ).y = 0 ∧ (Coord.zero : V4 ℝ).z = 0 :=
    ⟨get_zero .x, get_zero .y, get_zero .z⟩
  rw [hz.1] at hi
  rw [hz.2.1] at hj
  rw [hz.2.2] at hl
  obtain ⟨k1, k2, k3⟩ := hk
  apply V4.ext_get
  intro ax
  cases ax
  · rw [roundToSteps_decimal (hc.step .x (by decide))]
    exact congrArg (· / (c.ppm.x : ℝ)) (key (by decide) hi k1)
  · rw [roundToSteps_decimal (hc.step .y (by decide))]
    exact congrArg (· / (c.ppm.y : ℝ)) (key (by decide) hj k2)
  · rw [roundToSteps_decimal (hc.step .z (by decide))]
    exact congrArg (· / (c.ppm.z : ℝ)) (key (by decide) hl k3)
  · refine roundToSteps_zero ?_
    change PyNum.round10 (zeroF : ℝ) = 0
    rw [zeroF_eq, round10_zero]

/-- The vector to the end. -/
theorem end_steps (hc : PlainMachine c) {s : MState ℝ} {r : Ref} (ht : Tidy s) (hm : Matches c s r)
    {g : GCode} {d : V4 ℝ} (hd : readDelta s g = .ok d) {w : Axis → Option ℚ} (hw : Words g w) :
    roundToSteps c d = r.toEnd c w := by
  apply V4.ext_get
  intro ax
  cases ax
  · exact move_steps hc ht hm hd hw .x (by decide)
  · exact move_steps hc ht hm hd hw .y (by decide)
  · exact move_steps hc ht hm hd hw .z (by decide)
  · exact move_dec ht hm hd hw .e

theorem toEnd_get {r : Ref} {w : Axis → Option ℚ} {ax : Axis} (h : ax ≠ .e) :
    (r.toEnd c w).get ax = r.go c w ax / c.ppm.get ax := by
  cases ax
  exacts [rfl, rfl, rfl, absurd rfl h]

theorem toCentre_get {r : Ref} {k : Axis → Option ℚ} {ax : Axis} (h : ax ≠ .e) :
    (r.toCentre c k).get ax = r.centre c k ax / c.ppm.get ax := by
  cases ax
  exacts [rfl, rfl, rfl, absurd rfl h]

/-- A circle on the table is accepted. -/
theorem circleEnd_inside {plane : Plane} {delta radius pos : V4 ℝ} {rot : Rot}
    (h0 : startDist plane radius ≠ 0)
    (ht : ∀ ax, ax = axisA plane ∨ ax = axisB plane →
      startDist plane radius ≤ pos.get ax + radius.get ax ∧
      pos.get ax + radius.get ax + startDist plane radius ≤ tableSize c ax) :
    ∃ ce, circleEnd c plane delta radius pos rot = .ok ce := by
  have key : ∀ {da db ra rb pa pb ma mb : ℝ}, √(ra ^ 2 + rb ^ 2) ≠ 0 →
      (√(ra ^ 2 + rb ^ 2) ≤ pa + ra ∧ pa + ra + √(ra ^ 2 + rb ^ 2) ≤ ma) →
      (√(ra ^ 2 + rb ^ 2) ≤ pb + rb ∧ pb + rb + √(ra ^ 2 + rb ^ 2) ≤ mb) →
      ∃ a b, adjustCircle da db ra rb rot pa pb ma mb = .ok (a, b) := by
    intro da db ra rb pa pb ma mb h0 ha hb
    rw [adjustCircle_eq (fun h => h0 (by rw [h, Real.sqrt_zero])), fit_inside ha.1 ha.2 hb.1 hb.2]
    exact ⟨_, _, rfl⟩
  have hsq : ∀ ra rb : ℝ, √((-ra) ^ 2 + (-rb) ^ 2) = √(ra ^ 2 + rb ^ 2) := fun ra rb => by
    rw [neg_sq, neg_sq]
  have hA := ht _ (.inl rfl)
  have hB := ht _ (.inr rfl)
  unfold circleEnd
  cases plane <;>
    simp only [startDist, startA, startB, axisA, axisB, V4.get, hsq, tableSize] at h0 hA hB <;>
  · obtain ⟨a, b, h⟩ := key h0 hA hB
    simp only [ofRat_eq]
    rw [h]
    exact ⟨_, rfl⟩

/-- Without a radius the arc is refused. -/
theorem circleEnd_zero {plane : Plane} {delta radius pos : V4 ℝ} {rot : Rot}
    (h0 : radius.get (axisA plane) = 0 ∧ radius.get (axisB plane) = 0) :
    circleEnd c plane delta radius pos rot = .error (.gmachine "circle radius is zero") := by
  have key : ∀ {da db pa pb ma mb : ℝ}, adjustCircle da db 0 0 rot pa pb ma mb =
      .error (.gmachine "circle radius is zero") := by
    intro da db pa pb ma mb
    unfold adjustCircle
    have : ((PyNum.sqrt ((0 : ℝ) *ₚ 0 +ₚ 0 *ₚ 0)) =ₚ (zeroF : ℝ)) = true := by simp
    simp only [this, if_true]
    rfl
  obtain ⟨h1, h2⟩ := h0
  unfold circleEnd
  cases plane <;> simp only [axisA, axisB, V4.get] at h1 h2 <;>
  · simp only [h1, h2, key]
    rfl

omit [PyRound] in
theorem axes_ne_e (plane : Plane) : axisA plane ≠ .e ∧ axisB plane ≠ .e ∧ axis3 plane ≠ .e := by
  cases plane <;> exact ⟨by decide, by decide, by decide⟩

omit [PyRound] in
theorem onSteps_div {P : ℝ} (hP : 0 < P) (n : ℤ) : (n : ℝ) / P * P = n := div_mul_cancel₀ _ hP.ne'

theorem dec_zero' : dec 0 = 0 := by simp [dec, rnd_zero]

theorem startDist_ne {r : Ref} {plane : Plane} {k : Axis → Option ℚ} (hc : SaneCfg c)
    (h : HasCentre c r plane k) : startDist plane (r.toCentre c k) ≠ 0 := by
  obtain ⟨na, nb, -⟩ := axes_ne_e plane
  have hP : ∀ ax, (0 : ℝ) < c.ppm.get ax := fun ax => by exact_mod_cast hc.ppm_pos ax
  have key : ∀ {ax : Axis}, ax ≠ .e → r.centre c k ax ≠ 0 → (r.toCentre c k).get ax ≠ 0 := by
    intro ax hax hne
    rw [toCentre_get hax]
    exact div_ne_zero (by exact_mod_cast hne) (hP ax).ne'
  unfold startDist startA startB
  rw [neg_sq, neg_sq]
  refine (Real.sqrt_pos.2 ?_).ne'
  rcases h with h | h
  · have := key na h
    positivity
  · have := key nb h
    positivity

/-- An arc for which the program is right is one of ordinary size. -/
theorem right_ordinary {r : Ref} {plane : Plane} {rot : Rot} {w k : Axis → Option ℚ} {v : ℝ}
    (hc : PlainMachine c) (h : RightArc c r plane rot w k v) (hk : HasCentre c r plane k)
    (hv : 1 ≤ v) : OrdinaryArc c (r.toEnd c w) (r.toCentre c k) plane v := by
  obtain ⟨na, nb, n3⟩ := axes_ne_e plane
  have hP : ∀ ax, (0 : ℝ) < c.ppm.get ax := fun ax => by exact_mod_cast hc.sane.cfg.ppm_pos ax
  have hP' : ∀ ax, (c.ppm.get ax : ℝ) ≤ 1000 := fun ax => by exact_mod_cast hc.sane.cfg.ppm_le ax
  have hE : (r.toEnd c w).e = 0 := by
    change dec ((r.go c w .e : ℝ) / c.ppm.e) = 0
    rw [h.extruder, Int.cast_zero, zero_div, dec_zero']
  refine ⟨⟨hc.sane.cfg.ppm_pos _, hc.sane.cfg.ppm_pos _, ⟨r.centre c k (axisA plane), ?_⟩,
    ⟨r.centre c k (axisB plane), ?_⟩, ⟨r.go c w (axisA plane), ?_⟩, ⟨r.go c w (axisB plane), ?_⟩, ?_⟩,
    startDist_ne hc.sane.cfg hk, by rw [h.circle], h.size, ?_, ?_, ?_, ?_, ?_, hv⟩
  · rw [toCentre_get na, onSteps_div (hP _)]
  · rw [toCentre_get nb, onSteps_div (hP _)]
  · rw [toEnd_get na, onSteps_div (hP _)]
  · rw [toEnd_get nb, onSteps_div (hP _)]
  · rcases h.fit with h' | ⟨h1, h2⟩
    · exact .inl h'
    · exact .inr ⟨h1, h2, h.circle⟩
  · rcases h.third with h' | ⟨_, h', _⟩
    · rw [toEnd_get n3, h']; norm_num
    · exact h'
  · rw [hE]; norm_num
  · intro hne
    rw [toEnd_get n3] at hne ⊢
    have h1 : r.go c w (axis3 plane) ≠ 0 := by
      rintro h1
      rw [h1] at hne
      simp at hne
    have h2 : (1 : ℝ) ≤ |(r.go c w (axis3 plane) : ℝ)| := by
      rw [← Int.cast_abs]
      exact_mod_cast Int.one_le_abs h1
    rw [abs_div, abs_of_pos (hP _)]
    exact div_le_div₀ (by linarith) h2 (hP _) (hP' _)
  · intro hne; exact absurd hE hne
  · rcases h.third with h' | ⟨h' | h', _⟩
    · left
      refine ⟨?_, hE⟩
      rw [toEnd_get n3, h']; simp
    · right; left
      rw [toEnd_get na, toEnd_get nb, h'.1, h'.2]; simp
    · right; right
      exact h'

/-- An arc of ordinary size that is not bigger than the table and does not move the extruder. -/
def TableArc (c : Cfg) (g : CircGen ℝ) : Prop :=
  ∃ radius plane rot v, CircGen.new c g.delta radius plane rot v = .ok g ∧
    OrdinaryArc c g.delta radius plane v ∧ ¬ BackInQuarter plane g.delta radius ∧
    2 * startDist plane radius ≤ tableSize c (axisA plane) ∧
    2 * startDist plane radius ≤ tableSize c (axisB plane) ∧
    |g.delta.get (axis3 plane)| ≤ tableSize c (axis3 plane) ∧ g.delta.e = 0

/-- What a right arc adds to a trace. -/
def AddsArc (c : Cfg) (tr tr' : List (HalCall ℝ)) : Prop :=
  ∃ g radius plane, tr' = .move (.circular g) :: tr ∧ ArcOf c g radius plane ∧
    CircleInside c tr radius plane ∧ TableArc c g

/-- An arc. -/
theorem arc_refstep (hc : PlainMachine c) (henv : ∀ tr, env.move tr = none) {s : MState ℝ} {r : Ref}
    (hs : Reachable c env s) (hm : Matches c s r) {g : GCode} {d rad : V4 ℝ}
    (hd : readDelta s g = .ok d) {w k : Axis → Option ℚ} (hw : Words g w)
    (hr : g.radius Coord.zero s.conv = .ok rad) (hk : CentreWords g k) {rot : Rot} {v : ℝ} (hv : 1 ≤ v)
    (hR : StepsOnTable c (r.target c w) → HasCentre c r s.plane k →
      RightArc c r s.plane rot w k v) :
    (StepsOnTable c (r.target c w) ∧ HasCentre c r s.plane k →
      ∃ s', moveCircular c env d rad v rot s = (.ok (), s') ∧
        Matches c s' { r with steps := r.target c w } ∧ AddsArc c s.trace s'.trace ∧
        s'.plane = s.plane) ∧
    (¬ (StepsOnTable c (r.target c w) ∧ HasCentre c r s.plane k) →
      ∃ e, Reported e ∧ moveCircular c env d rad v rot s = (.error e, s)) := by
  have ht := tidy_reachable hs
  have hck := move_on_table hc ht hm hd hw
  have eD := end_steps hc ht hm hd hw
  have eR := radius_steps hc hm hr hk
  have hP : ∀ ax, (0 : ℝ) < c.ppm.get ax := fun ax => by exact_mod_cast hc.sane.cfg.ppm_pos ax
  obtain ⟨na, nb, n3⟩ := axes_ne_e s.plane
  constructor
  · rintro ⟨h1, h2⟩
    have hRA := hR h1 h2
    have hO := right_ordinary hc hRA h2 hv
    obtain ⟨ce, hce⟩ := circleEnd_inside (c := c) (plane := s.plane) (delta := r.toEnd c w)
      (pos := s.pos) (rot := rot) hO.start fun ax hax => by
        rw [hm.pos]; exact hRA.table ax hax
    have hgood := circleEnd_good hce hRA.circle (by
      rcases hRA.place with h | h | h | ⟨h, h'⟩
      · exact .inl h
      · exact .inr (.inl h)
      · exact .inr (.inr (.inl h))
      · refine .inr (.inr (.inr ?_))
        rw [toEnd_get na, toEnd_get nb, h, h']; simp)
    have hid : roundToSteps c (r.toEnd c w) = r.toEnd c w := by
      rw [← eD, roundToSteps_idem hc.sane.cfg]
    obtain ⟨cg, evs, hg, hem, nA, nB, _⟩ :=
      Props.C34_arc_pulses_partial hc.sane.cfg hO rot hRA.ahead
    obtain ⟨cg', hg', _, hvel⟩ := Props.C32_circular_partial hc.sane.cfg hc.limits hc.auto hO rot (by
      rcases hRA.third with h | ⟨_, _, h⟩
      · left
        refine ⟨?_, ?_⟩
        · rw [toEnd_get n3, h]; simp
        · change dec ((r.go c w .e : ℝ) / c.ppm.e) = 0
          rw [hRA.extruder, Int.cast_zero, zero_div, dec_zero']
      · exact .inr h)
    rw [hg] at hg'
    cases hg'
    subst hgood
    have hmv := circ_moves (c := c) (env := env) henv (d := d) (r := rad) (ce := r.toEnd c w) (v := v)
      (rot := rot) (s := s) (g := cg) (lg := none) (hck.2 h1) (by rw [eD, eR]; exact hce)
      (by rw [hid, eR]; exact hg) hvel (by rw [hid, eD]; exact extra_none _ _)
    have hgE : GridV (r.toEnd c w) := by rw [← eD]; exact gridV_roundToSteps _
    refine ⟨_, hmv, ⟨fun ax => ?_, ?_, hm.loc, hm.conv, hm.mode, hm.vel⟩, ?_, rfl⟩
    · dsimp only
      rw [hid, eD, get_add_grid (gridV_add _ _) (gridV_sub _ _), get_sub_grid hgE hgE, sub_self,
        add_zero, get_add_grid ht.pos hgE, hm.pos]
      by_cases hax : ax = .e
      · subst hax
        change r.extruded + dec ((r.go c w .e : ℝ) / c.ppm.e) = r.extruded
        rw [hRA.extruder, Int.cast_zero, zero_div, dec_zero', add_zero]
      · rw [toEnd_get hax, at_steps hax, at_steps hax, ← add_div]
        unfold Ref.go
        push_cast
        congr 1; ring
    · obtain ⟨evs0, hev, hn⟩ := hm.motors
      refine ⟨_, .move hem hev, fun ax => ?_⟩
      rw [netSteps_append (emits_announced hem (List.prefix_refl _)), hn]
      have hnet : (netSteps c ax evs : ℝ) = r.go c w ax := by
        rcases axis_cases s.plane ax with rfl | rfl | rfl | rfl
        · rw [nA, toEnd_get na, onSteps_div (hP _)]
        · rw [nB, toEnd_get nb, onSteps_div (hP _)]
        · rw [Props.C34_whole_steps hc.sane.cfg hg hem _ (.inl rfl)
            ⟨r.go c w (axis3 s.plane), by rw [toEnd_get n3, onSteps_div (hP _)]⟩, toEnd_get n3,
            onSteps_div (hP _)]
        · have hE : (r.toEnd c w).get .e = 0 := by
            change dec ((r.go c w .e : ℝ) / c.ppm.e) = 0
            rw [hRA.extruder, Int.cast_zero, zero_div, dec_zero']
          rw [Props.C34_whole_steps hc.sane.cfg hg hem _ (.inr rfl) ⟨0, by rw [hE]; simp⟩, hE,
            hRA.extruder]
          simp
      have hnet' : netSteps c ax evs = r.go c w ax := by exact_mod_cast hnet
      rw [hnet']
      unfold Ref.go
      dsimp only
      ring
    · obtain ⟨_, _, hf⟩ := new_facts hg
      refine ⟨cg, r.toCentre c k, s.plane, rfl, ⟨rot, v, ?_, ?_, ?_⟩, fun evs' hs' ax hax => ?_,
        r.toCentre c k, s.plane, rot, v, ?_, ?_, ?_, ?_, ?_, ?_, ?_⟩
      rotate_right 7
      · rw [hf.delta_eq]; exact hg
      · rw [hf.delta_eq]; exact hO
      · rw [hf.delta_eq]; exact hRA.ahead
      · have := hRA.table _ (.inl rfl)
        linarith [this.1, this.2]
      · have := hRA.table _ (.inr rfl)
        linarith [this.1, this.2]
      · have b1 := h1 _ n3
        have b2 := matches_onTable hc hs hm _ n3
        have b3 : (0 : ℝ) ≤ r.target c w (axis3 s.plane) := by exact_mod_cast b1.1
        have b4 : (0 : ℝ) ≤ r.steps (axis3 s.plane) := by exact_mod_cast b2.1
        rw [hf.delta_eq, toEnd_get n3, abs_div, abs_of_pos (hP _), div_le_iff₀ (hP _), abs_le]
        unfold Ref.go
        push_cast
        constructor <;> linarith [b1.2, b2.2]
      · rw [hf.delta_eq]
        change dec ((r.go c w .e : ℝ) / c.ppm.e) = 0
        rw [hRA.extruder, Int.cast_zero, zero_div, dec_zero']
      · rw [hf.delta_eq]; exact hg
      · rw [hf.delta_eq]; exact hO.grid
      · rw [hf.delta_eq]; exact hRA.ahead
      · obtain ⟨evs0, hev, hn⟩ := hm.motors
        cases sends_unique hs' hev
        have hax' : ax ≠ .e := by
          rcases hax with rfl | rfl
          exacts [na, nb]
        have := hRA.table ax hax
        rw [at_steps hax'] at this
        rw [hn]
        exact this
  · intro hn
    by_cases h1 : StepsOnTable c (r.target c w)
    · have h2 : ¬ HasCentre c r s.plane k := fun h => hn ⟨h1, h⟩
      unfold HasCentre at h2
      push Not at h2
      have hz : circleEnd c s.plane (roundToSteps c d) (roundToSteps c rad) s.pos rot =
          .error (.gmachine "circle radius is zero") := by
        rw [eR]
        refine circleEnd_zero ⟨?_, ?_⟩
        · rw [toCentre_get na, h2.1]; simp
        · rw [toCentre_get nb, h2.2]; simp
      refine ⟨.gmachine "circle radius is zero", trivial, ?_⟩
      rcases moveCircular_cases (c := c) (env := env) d rad v rot s with
        ⟨e, h0, h | h | ⟨ce, h, _⟩⟩ | ⟨ce, g, lg, _, h, _⟩
      · rw [hck.2 h1] at h; cases h
      · rw [hz] at h; cases h; exact h0
      · rw [hz] at h; cases h
      · rw [hz] at h; cases h
    · have he : ∃ e, Reported e ∧ checkDelta c s.pos (roundToSteps c d) = .error e := by
        have : checkDelta c s.pos (roundToSteps c d) ≠ .ok () := fun h => h1 (hck.1 h)
        unfold checkDelta at this ⊢
        split at this
        · exact absurd rfl this
        · next hx => rw [if_neg hx]; exact ⟨.gmachine _, trivial, rfl⟩
      obtain ⟨e, he, hd'⟩ := he
      refine ⟨e, he, ?_⟩
      simp [moveCircular, hd']

theorem says_g {g : GCode} {l : Line} (h : Says g l) :
    g.params.lookup 'G' ≠ none ∨ g.params.lookup 'M' = none := by
  obtain ⟨-, -, h⟩ := h
  have key : ∀ {n : String}, Is g 'G' n → g.params.lookup 'G' ≠ none ∨ g.params.lookup 'M' = none :=
    fun h => .inl (by rw [h.1]; simp)
  cases hl : l.stmt <;> rw [hl] at h <;> simp only at h
  case move => 
    rcases h.1 with h | h | h
    exacts [key h, key h, .inr h.1.2]
  case origin => exact key h.1
  case other =>
    rcases h with ⟨p, hp, h⟩ | h
    · simp only [List.mem_cons, List.not_mem_nil, or_false] at hp
      rcases hp with rfl | rfl | rfl <;> exact key h
    · exact .inr h.1.2
  all_goals exact key h

theorem feedOf_line (r : ArcRef) (st : ArcStmt) (f : Option ℚ) :
    r.feedOf ⟨st, f⟩ = lineFeed r.base ⟨.other, f⟩ := rfl

/-- A line with good numbers: it is refused for its feed, or its command is executed. -/
theorem numbers_cases (hc : PlainMachine c) {s : MState ℝ} {r : ArcRef} (hm : ArcMatches c s r)
    {g : GCode} {l : ArcLine} (hn : NumbersOk g) (hf : WordIs g 'F' l.feed) :
    ∃ d rad, readDelta s g = .ok d ∧ g.radius Coord.zero s.conv = .ok rad ∧
      ((r.feedOf l < c.minVel ∧
        doCommand c env (some g) s = (.error (.gmachine "feed speed too low"), s)) ∨
       (¬ r.feedOf l < c.minVel ∧ 1 ≤ r.feedOf l ∧
        ((∃ a s', execCmd c env (lineCmd g) g d rad (r.feedOf l) s = (.ok a, s') ∧
          doCommand c env (some g) s = (.ok a, { s' with vel := r.feedOf l })) ∨
         (∃ e s', execCmd c env (lineCmd g) g d rad (r.feedOf l) s = (.error e, s') ∧
          doCommand c env (some g) s = (.error e, s'))))) := by
  have hfv : g.get 'F' s.vel (PyNum.ofRat 1) = .ok (r.feedOf l) :=
    feed_ok (l := ⟨.other, l.feed⟩) hm.base hf
  rcases doCommand_cases (c := c) (env := env) g s with ⟨e', h1, h2⟩ | ⟨d, v, rad, hd, hv, hr, hx⟩
  · exfalso
    rcases h2 with h2 | h2 | h2
    · obtain ⟨_, k, t, h3, h4⟩ := readDelta_error h2
      exact absurd h4 (hn _ (mem_of_lookup h3))
    · rw [hfv] at h2; cases h2
    · obtain ⟨_, k, t, h3, h4⟩ := radius_error h2
      exact absurd h4 (hn _ (mem_of_lookup h3))
  rw [hfv] at hv
  cases hv
  refine ⟨d, rad, hd, hr, ?_⟩
  rcases hx with ⟨hlt, h⟩ | ⟨hmin, hx⟩
  · rw [lt_iff, ofRat_eq] at hlt
    exact .inl ⟨hlt, h⟩
  · rw [lt_false_iff, ofRat_eq] at hmin
    refine .inr ⟨not_lt.2 hmin, ?_, hx⟩
    have : (1 : ℝ) ≤ c.minVel := by exact_mod_cast hc.sane.minVel
    linarith

/-- One line. -/
theorem arcLine_only (hc : PlainMachine c) (henv : ∀ tr, env.move tr = none) {s : MState ℝ}
    {r : ArcRef} (hs : Reachable c env s) (hm : ArcMatches c s r) {g : GCode} {l : ArcLine}
    (hg : ArcSays g l) {m : ℚ} (hm4 : m ≤ 9999)
    (he : ∀ w, l.stmt = .plain (.move w) → (|r.base.go c w .e| : ℝ) ≤ m * c.ppm.e)
    (ha : ∀ rot w k, l.stmt = .arc rot w k → r.step c l ≠ none →
      RightArc c r.base r.plane rot w k (r.feedOf l)) :
    (∀ r', r.step c l = some r' → ∃ a s', doCommand c env (some g) s = (.ok a, s') ∧
      ArcMatches c s' r' ∧ (Grown c m s.trace s'.trace ∨
        (∃ rot w k, l.stmt = .arc rot w k) ∧ AddsArc c s.trace s'.trace)) ∧
    (r.step c l = none → ∃ e, Reported e ∧ doCommand c env (some g) s = (.error e, s)) := by
  obtain ⟨st, f⟩ := l
  cases st with
  | plain st =>
    obtain ⟨hg, hno⟩ := hg
    obtain ⟨k1, k2⟩ := line_matches hc henv hs hm.base hg hm4
      (fun w hw => he w (by simp only at hw ⊢; rw [hw]))
    change (∀ r', ((r.base.step c ⟨st, f⟩).map fun b => { r with base := b }) = some r' → _) ∧
      (((r.base.step c ⟨st, f⟩).map fun b => { r with base := b }) = none → _)
    cases hb : r.base.step c ⟨st, f⟩ with
    | none => exact ⟨fun r' h => by simp at h, fun _ => k2 hb⟩
    | some b =>
      obtain ⟨a, s', h1, h2, h3⟩ := k1 b hb
      refine ⟨fun r' h => ?_, fun h => by simp at h⟩
      cases h
      refine ⟨a, s', h1, ⟨h2, ?_⟩, .inl h3⟩
      by_contra hpl
      obtain ⟨p, hp, hi⟩ := (Props.C19_only_own_commands c env g s s' _ h1).1
        fun h => hpl (h.trans hm.plane)
      have hM : p.1 ≠ 'M' := by
        intro h
        rcases says_g hg with h' | h'
        · exact h' (hi.2 h)
        · have := hi.1
          rw [h, h'] at this
          cases this
      simp only [List.mem_cons, List.not_mem_nil, or_false] at hp
      rcases hp with rfl | rfl | rfl | rfl | rfl
      · exact hno ⟨_, by simp, hi⟩
      · exact hno ⟨_, by simp, hi⟩
      · exact hno ⟨_, by simp, hi⟩
      · exact hM rfl
      · exact hM rfl
  | plane p =>
    obtain ⟨hn, hf, hg⟩ := hg
    obtain ⟨d, rad, hd, hr, hx⟩ := numbers_cases (env := env) (l := ⟨.plane p, f⟩) hc hm hn hf
    have hstep : r.step c ⟨.plane p, f⟩ = open Classical in
      if r.feedOf ⟨.plane p, f⟩ < c.minVel then none
      else some { base := { r.base with feed := r.feedOf ⟨.plane p, f⟩ }, plane := p } := rfl
    rw [hstep]
    rcases hx with ⟨hlt, h⟩ | ⟨hmin, -, hx⟩
    · rw [if_pos hlt]
      exact ⟨fun r' h' => by simp at h', fun _ => ⟨.gmachine _, trivial, h⟩⟩
    · rw [if_neg hmin]
      refine ⟨fun r' h' => ?_, fun h' => by simp at h'⟩
      cases h'
      have hex : execCmd c env (lineCmd g) g d rad (r.feedOf ⟨.plane p, f⟩) s =
          (.ok none, { s with plane := p }) := by
        cases p
        · rw [is_lineCmd (cmd := .g17) ⟨_, List.mem_singleton_self _, hg⟩]; rfl
        · rw [is_lineCmd (cmd := .g18) ⟨_, List.mem_singleton_self _, hg⟩]; rfl
        · rw [is_lineCmd (cmd := .g19) ⟨_, List.mem_singleton_self _, hg⟩]; rfl
      rcases hx with ⟨a, s', h5, h6⟩ | ⟨e', s', h5, h6⟩
      · rw [hex] at h5; cases h5
        have hb := hm.base
        exact ⟨_, _, h6, ⟨⟨hb.pos, hb.motors, hb.loc, hb.conv, hb.mode, rfl⟩, rfl⟩, .inl (.inl rfl)⟩
      · rw [hex] at h5; cases h5
  | arc rot w k =>
    obtain ⟨hn, hf, hg, hw, hk⟩ := hg
    obtain ⟨d, rad, hd, hr, hx⟩ := numbers_cases (env := env) (l := ⟨.arc rot w k, f⟩) hc hm hn hf
    have hstep : r.step c ⟨.arc rot w k, f⟩ = open Classical in
      if ¬ r.feedOf ⟨.arc rot w k, f⟩ < c.minVel ∧ StepsOnTable c (r.base.target c w) ∧
          HasCentre c r.base r.plane k then
        some { r with base := { r.base with
          steps := r.base.target c w, feed := r.feedOf ⟨.arc rot w k, f⟩ } }
      else none := rfl
    have ha' := ha rot w k rfl
    rw [hstep] at ha' ⊢
    rcases hx with ⟨hlt, h⟩ | ⟨hmin, hv1, hx⟩
    · rw [if_neg (fun h => h.1 hlt)]
      exact ⟨fun r' h' => by simp at h', fun _ => ⟨.gmachine _, trivial, h⟩⟩
    · obtain ⟨k1, k2⟩ := arc_refstep hc henv hs hm.base hd hw hr hk (rot := rot) hv1 (by
        intro h1 h2
        rw [hm.plane] at h2 ⊢
        exact ha' (by rw [if_pos ⟨hmin, h1, h2⟩]; simp))
      rw [hm.plane] at k1 k2
      have hex : execCmd c env (lineCmd g) g d rad (r.feedOf ⟨.arc rot w k, f⟩) s =
          (do moveCircular c env d rad (r.feedOf ⟨.arc rot w k, f⟩) rot
              return none : M ℝ (Option (Answer ℝ))) s := by
        cases rot
        · rw [is_lineCmd (cmd := .g2) ⟨_, List.mem_singleton_self _, hg⟩]; rfl
        · rw [is_lineCmd (cmd := .g3) ⟨_, List.mem_singleton_self _, hg⟩]; rfl
      rw [hex] at hx
      by_cases hok : StepsOnTable c (r.base.target c w) ∧ HasCentre c r.base r.plane k
      · rw [if_pos ⟨hmin, hok⟩]
        refine ⟨fun r' h' => ?_, fun h' => by simp at h'⟩
        cases h'
        obtain ⟨s1, h1, h2, h3, h4⟩ := k1 hok
        have h5 := M.bind_ok (f := fun _ => (pure none : M ℝ (Option (Answer ℝ)))) h1
        rcases hx with ⟨a, s', h6, h7⟩ | ⟨e', s', h6, h7⟩
        · rw [h5] at h6; cases h6
          exact ⟨_, _, h7, ⟨⟨h2.pos, h2.motors, h2.loc, h2.conv, h2.mode, rfl⟩, h4⟩, .inr ⟨⟨rot, w, k, rfl⟩, h3⟩⟩
        · rw [h5] at h6; cases h6
      · rw [if_neg (fun h => hok h.2)]
        refine ⟨fun r' h' => by simp at h', fun _ => ?_⟩
        obtain ⟨e, h1, h2⟩ := k2 hok
        have h5 := M.bind_error (f := fun _ => (pure none : M ℝ (Option (Answer ℝ)))) h2
        rcases hx with ⟨a, s', h6, h7⟩ | ⟨e', s', h6, h7⟩
        · rw [h5] at h6; cases h6
        · rw [h5] at h6; cases h6
          exact ⟨e, h1, h7⟩

theorem arcLine_matches (hc : PlainMachine c) (henv : ∀ tr, env.move tr = none) {s : MState ℝ}
    {r : ArcRef} (hs : Reachable c env s) (hm : ArcMatches c s r) {g : GCode} {l : ArcLine}
    (hg : ArcSays g l) {m : ℚ} (hm4 : m ≤ 9999)
    (he : ∀ w, l.stmt = .plain (.move w) → (|r.base.go c w .e| : ℝ) ≤ m * c.ppm.e)
    (ha : ∀ rot w k, l.stmt = .arc rot w k → r.step c l ≠ none →
      RightArc c r.base r.plane rot w k (r.feedOf l)) :
    (∀ r', r.step c l = some r' → ∃ a s', doCommand c env (some g) s = (.ok a, s') ∧
      ArcMatches c s' r' ∧ (Grown c m s.trace s'.trace ∨ AddsArc c s.trace s'.trace)) ∧
    (r.step c l = none → ∃ e, Reported e ∧ doCommand c env (some g) s = (.error e, s)) := by
  obtain ⟨k1, k2⟩ := arcLine_only hc henv hs hm hg hm4 he ha
  refine ⟨fun r' hr => ?_, k2⟩
  obtain ⟨a, s', h1, h2, h3⟩ := k1 r' hr
  exact ⟨a, s', h1, h2, h3.imp_right fun h => h.2⟩

/-- A program. -/
theorem arcProgram_matches [PyText] (hc : PlainMachine c) (henv : ∀ tr, env.move tr = none)
    (prog : List (List Char × ArcLine))
    (hp : ∀ p ∈ prog, ∃ g, parseLine p.1 = .ok (some g) ∧ ArcSays g p.2)
    {m : ℚ} (hm4 : m ≤ 9999) {Q : List (HalCall ℝ) → Prop}
    (hQ : ∀ tr tr', Q tr → Grown c m tr tr' ∨ AddsArc c tr tr' → Q tr') :
    ∀ {s : MState ℝ} {r : ArcRef}, Reachable c env s → ArcMatches c s r →
      RightArcs c m r (prog.map (·.2)) → Q s.trace →
      ∃ s', machineRun c env s (prog.map (·.1)) = some ((r.run c (prog.map (·.2))).1, s') ∧
        Reachable c env s' ∧ ArcMatches c s' (r.run c (prog.map (·.2))).2 ∧ Q s'.trace := by
  induction prog with
  | nil => exact fun hs hm _ hq => ⟨_, rfl, hs, hm, hq⟩
  | cons p ps ih =>
    intro s r hs hm hx hq
    obtain ⟨hx1, hx2, hx3⟩ := hx
    obtain ⟨g, hpar, hg⟩ := hp p (by simp)
    obtain ⟨k1, k2⟩ := arcLine_matches hc henv hs hm hg hm4 hx1 hx2
    have ih' := @ih (fun q hq => hp q (by simp [hq]))
    have hstep := Reachable.step (.cmd (some g)) hs
    simp only [List.map_cons, machineRun, ArcRef.run]
    cases hr : r.step c p.2 with
    | none =>
      obtain ⟨e, he, h⟩ := k2 hr
      have hl : doLine c env p.1 s = (.ok (.error e), s) := by
        unfold doLine
        rw [hpar]
        simp only [h]
        unfold Reported at he
        unfold catchLine
        split at he <;> simp_all
      simp only [hl]
      obtain ⟨s', h1, h2⟩ := ih' hs hm (by rw [hr] at hx3; exact hx3) hq
      exact ⟨s', by rw [h1]; rfl, h2⟩
    | some r' =>
      obtain ⟨a, s1, h, h', h''⟩ := k1 r' hr
      have hl : doLine c env p.1 s = (.ok (.ok a), s1) := by
        unfold doLine
        rw [hpar]
        simp only [h]
      simp only [hl]
      have : Reachable c env s1 := by
        have e : (Op.exec c env (.cmd (some g)) s).2 = s1 := by simp [Op.exec, h]
        exact e ▸ hstep
      obtain ⟨s', h1, h2⟩ := ih' this h' (by rw [hr] at hx3; exact hx3) (hQ _ _ hq h'')
      exact ⟨s', by rw [h1]; rfl, h2⟩

end PyCNC
