import Verif.Lemmas.ArcCheck

/-!
# Where the motors are after a history
-/

set_option linter.unusedSectionVars false

namespace PyCNC

open Spec

variable [PyRound] {c : Cfg} {env : Env ℝ}

/-! ## Only the moves matter -/

inductive SendsG (c : Cfg) : List (Gen ℝ) → List (Event ℝ) → Prop
  | nil : SendsG c [] []
  | move {g gs evs evs'} : Emits c g evs' → SendsG c gs evs → SendsG c (g :: gs) (evs ++ evs')

theorem sends_iff {tr : List (HalCall ℝ)} {evs : List (Event ℝ)} :
    Sends c tr evs ↔ SendsG c (movesOf tr) evs := by
  constructor
  · intro h
    induction h with
    | nil => exact .nil
    | move h1 _ ih => exact .move h1 ih
    | other h1 _ ih => rw [movesOf_other h1]; exact ih
  · induction tr generalizing evs with
    | nil => intro h; cases h; exact .nil
    | cons call tr ih =>
      intro h
      by_cases hc : ∃ g, call = .move g
      · obtain ⟨g, rfl⟩ := hc
        cases h with
        | move h1 h2 => exact .move h1 (ih h2)
      · have h' : ∀ g', call ≠ .move g' := fun g' e => hc ⟨g', e⟩
        rw [movesOf_other h'] at h
        exact .other h' (ih h)

theorem sends_congr {tr tr' : List (HalCall ℝ)} (h : movesOf tr = movesOf tr')
    {evs : List (Event ℝ)} : Sends c tr evs ↔ Sends c tr' evs := by rw [sends_iff, sends_iff, h]

/-- Every circular move of the trace satisfies `Q`. -/
def ArcsAre (Q : List (HalCall ℝ) → CircGen ℝ → Prop) : List (HalCall ℝ) → Prop :=
  Always fun call earlier => ∀ g, call = .move (.circular g) → Q earlier g

def ArcsAreG (Q : List (HalCall ℝ) → CircGen ℝ → Prop) : List (Gen ℝ) → Prop
  | [] => True
  | g :: gs => (∀ g', g = .circular g' → Q (gs.map .move) g') ∧ ArcsAreG Q gs

theorem movesOf_map (gs : List (Gen ℝ)) : movesOf (gs.map HalCall.move) = gs := by
  induction gs with
  | nil => rfl
  | cons g gs ih => rw [List.map_cons, movesOf, ih]

theorem arcsAre_iff {Q : List (HalCall ℝ) → CircGen ℝ → Prop}
    (hQ : ∀ tr tr' g, movesOf tr = movesOf tr' → Q tr g → Q tr' g) (tr : List (HalCall ℝ)) :
    ArcsAre Q tr ↔ ArcsAreG Q (movesOf tr) := by
  induction tr with
  | nil => exact Iff.rfl
  | cons call tr ih =>
    have hstep : ArcsAre Q (call :: tr) ↔
      (∀ g, call = .move (.circular g) → Q tr g) ∧ ArcsAre Q tr := Iff.rfl
    rw [hstep, ih]
    by_cases hc : ∃ g, call = .move g
    · obtain ⟨g, rfl⟩ := hc
      rw [movesOf, ArcsAreG]
      refine and_congr_left fun _ => ?_
      constructor
      · intro h g' e
        exact hQ _ _ _ (movesOf_map _).symm (h g' (by rw [e]))
      · intro h g' e
        cases e
        exact hQ _ _ _ (movesOf_map _) (h g' rfl)
    · have h' : ∀ g', call ≠ .move g' := fun g' e => hc ⟨g', e⟩
      rw [movesOf_other h']
      exact and_iff_right fun g e => absurd e (h' _)

theorem arcsAre_congr {Q : List (HalCall ℝ) → CircGen ℝ → Prop}
    (hQ : ∀ tr tr' g, movesOf tr = movesOf tr' → Q tr g → Q tr' g) {tr tr' : List (HalCall ℝ)}
    (h : movesOf tr = movesOf tr') : ArcsAre Q tr ↔ ArcsAre Q tr' := by
  rw [arcsAre_iff hQ, arcsAre_iff hQ, h]

theorem sends_linear {g : Gen ℝ} {tr : List (HalCall ℝ)} {evs : List (Event ℝ)}
    (h : Sends c (.move g :: tr) evs) :
    ∃ e0 e1, evs = e0 ++ e1 ∧ Sends c tr e0 ∧ Emits c g e1 := by
  cases h with
  | move h1 h2 => exact ⟨_, _, rfl, h2, h1⟩
  | other h1 _ => exact absurd rfl (h1 g)

theorem sends_unique {tr : List (HalCall ℝ)} {e₁ e₂ : List (Event ℝ)} (h1 : Sends c tr e₁)
    (h2 : Sends c tr e₂) : e₁ = e₂ := by
  induction h1 generalizing e₂ with
  | nil => cases h2; rfl
  | move h _ ih =>
    obtain ⟨a, b, rfl, h3, h4⟩ := sends_linear h2
    rw [ih h3, emits_unique h h4]
  | other h _ ih =>
    cases h2 with
    | move _ _ => exact absurd rfl (h _)
    | other _ h3 => exact ih h3

theorem prefix_append_cases {α : Type*} {pre a b : List α} (h : pre <+: a ++ b) :
    pre <+: a ∨ ∃ p, p <+: b ∧ pre = a ++ p := by
  rcases le_total pre.length a.length with hl | hl
  · exact .inl (List.prefix_of_prefix_length_le h (List.prefix_append a b) hl)
  · obtain ⟨p, rfl⟩ := List.prefix_of_prefix_length_le (List.prefix_append a b) h hl
    exact .inr ⟨p, (List.prefix_append_right_inj a).1 h, rfl⟩

/-! ## The position -/

theorem arc_step {g : CircGen ℝ} {ax : Axis} {radius : V4 ℝ} {plane : Plane}
    (ha : ArcOf c g radius plane) (hp : 0 < c.ppm.get ax) {n : ℤ}
    (hn : g.delta.get ax * c.ppm.get ax = n) {evs : List (Event ℝ)}
    (he : Emits c (.circular g) evs) : netSteps c ax evs = n := by
  obtain ⟨rot, v, hg, hgrid, hb⟩ := ha
  have hax : (ax = axisA plane ∨ ax = axisB plane) ∨ (ax = axis3 plane ∨ ax = .e) := by
    cases plane <;> cases ax <;> simp [axisA, axisB, axis3]
  rcases hax with hax | hax
  · have h1 := (arc_train hgrid hg hb he hax).1
    rw [hn] at h1
    exact_mod_cast h1
  · obtain ⟨h1, h2⟩ := arc_other hg he ax hax
    have hP : (0 : ℝ) < c.ppm.get ax := by exact_mod_cast hp
    have e : |g.delta.get ax| * c.ppm.get ax = ((n.natAbs : ℕ) : ℝ) := by
      rw [Nat.cast_natAbs, Int.cast_abs, ← hn, abs_mul, abs_of_pos hP]
    rw [e, Nat.ceil_natCast] at h1
    rw [h2, h1]
    split
    · rename_i hx
      have h3 : (n : ℝ) < 0 := by rw [← hn]; exact mul_neg_of_neg_of_pos hx hP
      have h3 : n < 0 := by exact_mod_cast h3
      omega
    · rename_i hx
      have h3 : (0 : ℝ) ≤ n := by rw [← hn]; exact mul_nonneg (not_lt.1 hx) hP.le
      have h3 : 0 ≤ n := by exact_mod_cast h3
      omega

theorem rts_steps {ax : Axis} (h : DecimalStep c ax) (d : V4 ℝ) :
    (roundToSteps c d).get ax * c.ppm.get ax = (PyRound.rnd (d.get ax * c.ppm.get ax) : ℤ) := by
  rw [roundToSteps_decimal h, div_mul_cancel₀ _ (decimalStep_ppm h).1]

/-- What an arc without exception of the hardware does. -/
theorem moveCircular_moves (henv : ∀ tr, env.move tr = none) (d r : V4 ℝ) (v : ℝ) (rot : Rot)
    (s : MState ℝ) :
    (moveCircular c env d r v rot s).2 = s ∨
    ∃ ce g lg, checkDelta c s.pos (roundToSteps c d) = .ok () ∧
      circleEnd c s.plane (roundToSteps c d) (roundToSteps c r) s.pos rot = .ok ce ∧
      CircGen.new c (roundToSteps c ce) (roundToSteps c r) s.plane rot v = .ok g ∧
      extraLinear c (Coord.sub (roundToSteps c d) (roundToSteps c ce)) v = .ok lg ∧
      (moveCircular c env d r v rot s).2.pos =
        Coord.add (Coord.add s.pos (roundToSteps c ce))
          (Coord.sub (roundToSteps c d) (roundToSteps c ce)) ∧
      (moveCircular c env d r v rot s).2.trace = (match lg with
        | none => .move (.circular g) :: s.trace
        | some l => .move (.linear l) :: .move (.circular g) :: s.trace) := by
  rcases moveCircular_cases (c := c) (env := env) d r v rot s with ⟨e, h', _⟩ |
    ⟨ce, g, lg, h1, h2, h3, _, h5, h'⟩
  · left; rw [h']
  · right
    refine ⟨ce, g, lg, h1, h2, h3, h5, ?_⟩
    rcases arcMoves_cases (env := env) g lg (fun s : MState ℝ => { s with
        pos := Coord.add (Coord.add s.pos (roundToSteps c ce))
          (Coord.sub (roundToSteps c d) (roundToSteps c ce)) }) s with ⟨e, s2, _, ⟨tr, h4⟩, _⟩ |
      ⟨s2, hs2, h4, _⟩
    · rw [henv] at h4; cases h4
    · rw [h', h4, hs2]
      cases lg <;> exact ⟨rfl, rfl⟩

theorem extraLinear_ok {d : V4 ℝ} {v : ℝ} {lg : Option (LinearGen ℝ)}
    (h : extraLinear c d v = .ok lg) :
    (lg = none ∧ ∀ ax, d.get ax = 0) ∨ ∃ l, lg = some l ∧ LinearGen.new c d v = .ok l := by
  unfold extraLinear at h
  cases hz : Coord.isZero d
  · rw [hz] at h
    simp only [Bool.not_false, if_true] at h
    obtain ⟨l, h1, h⟩ := bindE_ok h
    obtain ⟨_, h2, h⟩ := bindE_ok h
    cases h
    exact .inr ⟨l, rfl, h1⟩
  · rw [hz] at h
    simp only [Bool.not_true, Bool.false_eq_true, if_false] at h
    cases h
    exact .inl ⟨rfl, (isZero_iff _).1 hz⟩

/-- The arcs of the trace are arcs on steps that do not end before their start. -/
abbrev PlainArcs (c : Cfg) : List (HalCall ℝ) → Prop :=
  ArcsAre fun _ g => ∃ radius plane, ArcOf c g radius plane

/-- The position is where the motors are. -/
def NetInv (c : Cfg) (ax : Axis) (s : MState ℝ) : Prop :=
  GridV s.pos ∧ (PlainArcs c s.trace →
    ∀ evs, Sends c s.trace evs → s.pos.get ax * c.ppm.get ax = netSteps c ax evs)

theorem netInv_init {ax : Axis} : NetInv c ax (MState.init c) := by
  refine ⟨gridV_zero, fun _ evs h => ?_⟩
  rw [sends_iff] at h
  change SendsG c [] evs at h
  cases h
  change (Coord.zero : V4 ℝ).get ax * _ = _
  rw [get_zero]
  simp [netSteps, netFrom]

theorem netInv_linear (henv : ∀ tr, env.move tr = none) {ax : Axis} (hd : DecimalStep c ax)
    (hp : 0 < c.ppm.get ax) (d : V4 ℝ) (v : ℝ) : M.Pres (NetInv c ax) (moveLinear c env d v) := by
  rintro s ⟨hg, ih⟩
  rcases moveLinear_cases (c := c) (env := env) d v s with ⟨hz, h'⟩ | ⟨_, e, h', _⟩ |
    ⟨_, g, _, hnew, _, ⟨e, he, h'⟩ | ⟨_, h'⟩⟩
  · rw [h']; exact ⟨hg, ih⟩
  · rw [h']; exact ⟨hg, ih⟩
  · rw [henv] at he; cases he
  · rw [h']
    refine ⟨gridV_add _ _, fun ha evs he => ?_⟩
    obtain ⟨e0, e1, rfl, h0, h1⟩ := sends_linear he
    have hn := rts_steps hd d
    have h2 := (linear_train (gridV_roundToSteps _) hnew h1 hp (n := PyRound.rnd (d.get ax * c.ppm.get ax))
      (by rw [hn]; norm_num)).1
    rw [netSteps_append (emits_announced h1 List.prefix_rfl), h2]
    dsimp only
    rw [get_add_grid hg (gridV_roundToSteps _), add_mul, ih ha.2 e0 h0, hn]
    push_cast; ring

theorem netInv_circular (henv : ∀ tr, env.move tr = none) {ax : Axis} (hd : DecimalStep c ax)
    (hp : 0 < c.ppm.get ax) (d r : V4 ℝ) (v : ℝ) (rot : Rot) :
    M.Pres (NetInv c ax) (moveCircular c env d r v rot) := by
  rintro s ⟨hg, ih⟩
  rcases moveCircular_moves henv d r v rot s with h | ⟨ce, g, lg, _, _, hnew, hlg, hpos, htr⟩
  · rw [h]; exact ⟨hg, ih⟩
  · unfold NetInv; rw [hpos, htr]
    refine ⟨gridV_add _ _, ?_⟩
    have hdel : g.delta = roundToSteps c ce := by
      obtain ⟨_, _, hf⟩ := new_facts hnew; exact hf.delta_eq
    have hce := rts_steps hd ce
    have hdd := rts_steps hd d
    have hsub := get_sub_grid (gridV_roundToSteps (c := c) d) (gridV_roundToSteps (c := c) ce) ax
    have hsum : (Coord.add (Coord.add s.pos (roundToSteps c ce))
        (Coord.sub (roundToSteps c d) (roundToSteps c ce))).get ax * c.ppm.get ax =
        s.pos.get ax * c.ppm.get ax + (roundToSteps c d).get ax * c.ppm.get ax := by
      rw [get_add_grid (gridV_add _ _) (gridV_sub _ _), get_add_grid hg (gridV_roundToSteps _),
        hsub]
      ring
    rw [hsum, hdd]
    rcases extraLinear_ok hlg with ⟨rfl, hz⟩ | ⟨l, rfl, hl⟩
    · intro ha evs he
      obtain ⟨e0, e1, rfl, h0, h1⟩ := sends_linear he
      obtain ⟨radius, plane, harc⟩ := ha.1 g rfl
      have h2 := arc_step harc hp (n := PyRound.rnd (ce.get ax * c.ppm.get ax))
        (by rw [hdel, hce]) h1
      have h3 := hz ax
      rw [hsub, sub_eq_zero] at h3
      rw [netSteps_append (emits_announced h1 List.prefix_rfl), h2, ih ha.2 e0 h0, ← hdd, h3, hce]
      push_cast; ring
    · intro ha evs he
      obtain ⟨e0, e2, rfl, h0, h4⟩ := sends_linear he
      obtain ⟨e0, e1, rfl, h0, h1⟩ := sends_linear h0
      obtain ⟨radius, plane, harc⟩ := ha.2.1 g rfl
      have h2 := arc_step harc hp (n := PyRound.rnd (ce.get ax * c.ppm.get ax))
        (by rw [hdel, hce]) h1
      have h5 := (linear_train (gridV_sub _ _) hl h4 hp
        (n := PyRound.rnd (d.get ax * c.ppm.get ax) - PyRound.rnd (ce.get ax * c.ppm.get ax))
        (by rw [hsub, sub_mul, hdd, hce]; push_cast; rw [sub_self]; norm_num)).1
      rw [netSteps_append (emits_announced h4 List.prefix_rfl),
        netSteps_append (emits_announced h1 List.prefix_rfl), h2, h5, ih ha.2.2 e0 h0]
      push_cast; ring

theorem netInv_other {ax : Axis} (s s' : MState ℝ) (h : NetInv c ax s) (hp : s'.pos = s.pos)
    (hm : movesOf s'.trace = movesOf s.trace) : NetInv c ax s' := by
  obtain ⟨hg, ih⟩ := h
  unfold NetInv
  rw [hp]
  refine ⟨hg, fun ha evs he => ih ?_ evs ((sends_congr hm).1 he)⟩
  exact (arcsAre_congr (fun _ _ _ _ h => h) hm).1 ha

/-- The position is where the motors are. -/
theorem position_net (henv : ∀ tr, env.move tr = none) {ax : Axis} (hd : DecimalStep c ax)
    (hp : 0 < c.ppm.get ax) {s : MState ℝ} (hs : Reachable c env s)
    (ha : PlainArcs c s.trace) {evs : List (Event ℝ)} (he : Sends c s.trace evs) :
    s.pos.get ax * c.ppm.get ax = netSteps c ax evs :=
  (reachable_moves netInv_init (netInv_linear henv hd hp) (netInv_circular henv hd hp) netInv_other
    hs).2 ha evs he

/-! ## The table -/

/-- All the way through the pulses the axis is on the table. -/
def OnTable (c : Cfg) (ax : Axis) (evs : List (Event ℝ)) : Prop :=
  ∀ pre, pre <+: evs → (0 : ℝ) ≤ netSteps c ax pre ∧
    (netSteps c ax pre : ℝ) ≤ tableSize c ax * c.ppm.get ax

theorem onTable_append {ax : Axis} {a b : List (Event ℝ)} (h : OnTable c ax a)
    (hb : ∀ p, p <+: b → Announced p)
    (hab : ∀ p, p <+: b → (0 : ℝ) ≤ netSteps c ax a + netSteps c ax p ∧
      (netSteps c ax a + netSteps c ax p : ℝ) ≤ tableSize c ax * c.ppm.get ax) :
    OnTable c ax (a ++ b) := by
  intro pre hp
  rcases prefix_append_cases hp with hp | ⟨p, hq, rfl⟩
  · exact h pre hp
  · rw [netSteps_append (hb p hq)]
    push_cast
    exact hab p hq

/-- A straight move between two points of the table. -/
theorem between_table {a n : ℤ} {T : ℝ} (h1 : (0 : ℝ) ≤ a ∧ (a : ℝ) ≤ T)
    (h2 : (0 : ℝ) ≤ a + n ∧ (a + n : ℝ) ≤ T) {k : ℤ} (hk : min 0 n ≤ k ∧ k ≤ max 0 n) :
    (0 : ℝ) ≤ (a : ℝ) + k ∧ (a + k : ℝ) ≤ T := by
  rcases le_total 0 n with hn | hn
  · rw [min_eq_left hn, max_eq_right hn] at hk
    have k1 : (0 : ℝ) ≤ k := by exact_mod_cast hk.1
    have k2 : (k : ℝ) ≤ n := by exact_mod_cast hk.2
    constructor <;> linarith
  · rw [min_eq_right hn, max_eq_left hn] at hk
    have k1 : (n : ℝ) ≤ k := by exact_mod_cast hk.1
    have k2 : (k : ℝ) ≤ 0 := by exact_mod_cast hk.2
    constructor <;> linarith

theorem checkDelta_table (ht : TableOk c) {p d : V4 ℝ} (hp : GridV p) (hd : GridV d)
    (h : checkDelta c p d = .ok ()) {ax : Axis} (hax : ax ≠ .e) :
    0 ≤ p.get ax + d.get ax ∧ p.get ax + d.get ax ≤ tableSize c ax := by
  obtain ⟨⟨hx0, hx⟩, ⟨hy0, hy⟩, ⟨hz0, hz⟩⟩ := ht
  have := (checkDelta_ok (decimalQ_grid hx) (decimalQ_grid hy) (decimalQ_grid hz)
    ⟨hx0, hy0, hz0⟩ hp hd).1 h
  cases ax
  · exact this.1
  · exact this.2.1
  · exact this.2.2
  · exact absurd rfl hax

/-- The arcs of the trace stay on the table, as far as the program does not check that itself. -/
abbrev InsideArcs (c : Cfg) : List (HalCall ℝ) → Prop :=
  ArcsAre fun earlier g => ∃ radius plane, ArcOf c g radius plane ∧ LastInside c earlier g radius plane

theorem lastInside_of_arc {g : CircGen ℝ} {radius : V4 ℝ} {plane : Plane} {earlier : List (HalCall ℝ)}
    (h : ArcInside c earlier g radius plane) : LastInside c earlier g radius plane :=
  fun evs T hs hT ax hax => ⟨(h evs T hs hT ax hax).1, fun θ h1 h2 _ _ =>
    (h evs T hs hT ax hax).2 θ h1.le h2.le⟩

theorem lastInside_congr {tr tr' : List (HalCall ℝ)} (h : movesOf tr = movesOf tr') {g : CircGen ℝ}
    {radius : V4 ℝ} {plane : Plane} (hc : LastInside c tr g radius plane) :
    LastInside c tr' g radius plane :=
  fun evs T he => hc evs T ((sends_congr h).2 he)

theorem insideArcs_plain {tr : List (HalCall ℝ)} (h : InsideArcs c tr) : PlainArcs c tr := by
  induction tr with
  | nil => trivial
  | cons call tr ih =>
    refine ⟨fun g hg => ?_, ih h.2⟩
    obtain ⟨radius, plane, ha, _⟩ := h.1 g hg
    exact ⟨radius, plane, ha⟩

/-- The head stays on the table. -/
def TabInv (c : Cfg) (ax : Axis) (s : MState ℝ) : Prop :=
  NetInv c ax s ∧ (0 ≤ s.pos.get ax ∧ s.pos.get ax ≤ tableSize c ax) ∧
  (InsideArcs c s.trace → ∀ evs, Sends c s.trace evs → OnTable c ax evs)

theorem tabInv_linear (henv : ∀ tr, env.move tr = none) {ax : Axis} (hax : ax ≠ .e) (ht : StepTable c)
    (d : V4 ℝ) (v : ℝ) : M.Pres (TabInv c ax) (moveLinear c env d v) := by
  obtain ⟨hd, hp⟩ := ht.step ax hax
  have hP : (0 : ℝ) < c.ppm.get ax := by exact_mod_cast hp
  rintro s ⟨hn, hin, ih⟩
  have hpost := netInv_linear henv hd hp d v s hn
  refine ⟨hpost, ?_⟩
  rcases moveLinear_cases (c := c) (env := env) d v s with ⟨hz, h'⟩ | ⟨_, e, h', _⟩ |
    ⟨_, g, hcd, hnew, _, ⟨e, he, h'⟩ | ⟨_, h'⟩⟩
  · rw [h']; exact ⟨hin, ih⟩
  · rw [h']; exact ⟨hin, ih⟩
  · rw [henv] at he; cases he
  · rw [h']
    have h1 := checkDelta_table ht.table hn.1 (gridV_roundToSteps _) hcd hax
    refine ⟨by dsimp only; rw [get_add_grid hn.1 (gridV_roundToSteps _)]; exact h1, fun ha evs he => ?_⟩
    obtain ⟨e0, e1, rfl, h0, he1⟩ := sends_linear he
    have hr := rts_steps hd d
    have h2 := (linear_train (gridV_roundToSteps _) hnew he1 hp (n := PyRound.rnd (d.get ax * c.ppm.get ax))
      (by rw [hr]; norm_num)).2
    have h3 := hn.2 (insideArcs_plain ha.2) e0 h0
    refine onTable_append (ih ha.2 e0 h0) (fun p hp => emits_announced he1 hp) fun p hp => ?_
    refine between_table ?_ ?_ (h2 p hp)
    · rw [← h3]
      exact ⟨mul_nonneg hin.1 hP.le, mul_le_mul_of_nonneg_right hin.2 hP.le⟩
    · rw [← h3, ← hr, ← add_mul]
      exact ⟨mul_nonneg h1.1 hP.le, mul_le_mul_of_nonneg_right h1.2 hP.le⟩

/-- An arc of a circle that lies on the table lies on the table. -/
theorem arcInside_of_circle (ht : StepTable c) {g : CircGen ℝ} {radius : V4 ℝ} {plane : Plane}
    {earlier : List (HalCall ℝ)} (harc : ArcOf c g radius plane)
    (hin : CircleInside c earlier radius plane) : ArcInside c earlier g radius plane := by
  intro evs T hs _ ax hpl
  obtain ⟨h1, h2⟩ := hin evs hs ax hpl
  have hax : ax ≠ .e := by rintro rfl; cases plane <;> simp [axisA, axisB] at hpl
  obtain ⟨_, hpos⟩ := ht.step ax hax
  obtain ⟨W, hW⟩ := ht.whole ax hax
  have hW' : (tableSize c ax : ℝ) * c.ppm.get ax = W := by exact_mod_cast hW
  have hP : (0 : ℝ) < c.ppm.get ax := by exact_mod_cast hpos
  constructor
  · obtain ⟨rot, v, hg, hgrid, hb⟩ := harc
    obtain ⟨-, R, RB, A, B, EA, EB, hi, -, -, -, -, -, -, hR, hRB, -⟩ := arc_gen hgrid hg
    obtain ⟨R', E, n, hR', hE, rE, hn⟩ : ∃ R' E n : ℤ,
        PyRound.rnd (startDist plane radius * c.ppm.get ax) = R' ∧
        (g.delta.get ax - radius.get ax) * (c.ppm.get ax : ℝ) = E ∧ (-R' ≤ E ∧ E ≤ R') ∧
        radius.get ax * (c.ppm.get ax : ℝ) = n := by
      rcases hpl with rfl | rfl
      · exact ⟨R, EA, -A, hR, hi.hEA, hi.rEA, by
          have := hi.hA; simp only [startA, neg_mul] at this; push_cast; linarith⟩
      · exact ⟨RB, EB, -B, hRB, hi.hEB, hi.rEB, by
          have := hi.hB; simp only [startB, neg_mul] at this; push_cast; linarith⟩
    set a := netSteps c ax evs
    have e : (a / (c.ppm.get ax : ℝ) + radius.get ax) * c.ppm.get ax = (a + n : ℤ) := by
      rw [add_mul, div_mul_cancel₀ _ hP.ne', hn]; push_cast; rfl
    have k1 := mul_le_mul_of_nonneg_right h1 hP.le
    have k2 := mul_le_mul_of_nonneg_right h2 hP.le
    rw [e] at k1
    rw [add_mul, e, hW'] at k2
    have r1 : R' ≤ a + n := by
      rw [← hR', ← rnd_int (a + n)]; exact rnd_mono k1
    have r2 : R' ≤ W - (a + n) := by
      rw [← hR', ← rnd_int (W - (a + n))]; exact rnd_mono (by push_cast; push_cast at k2; linarith)
    have hd : (a / (c.ppm.get ax : ℝ) + g.delta.get ax) * c.ppm.get ax = (a + n + E : ℤ) := by
      rw [add_mul, div_mul_cancel₀ _ hP.ne']; push_cast; linarith
    have q1 : (0 : ℝ) ≤ (a + n + E : ℤ) := by
      have : 0 ≤ a + n + E := by omega
      exact_mod_cast this
    have q2 : ((a + n + E : ℤ) : ℝ) ≤ W := by
      have : a + n + E ≤ W := by omega
      exact_mod_cast this
    rw [← hd] at q1 q2
    rw [← hW'] at q2
    exact ⟨nonneg_of_mul_nonneg_left q1 hP, le_of_mul_le_mul_right q2 hP⟩
  · intro θ _ _
    have hd : |turnedOn plane radius g.rot θ ax| ≤ startDist plane radius := by
      rw [startDist]
      refine Real.abs_le_sqrt ?_
      have hu : (turnSign g.rot) ^ 2 = 1 := by cases g.rot <;> norm_num [turnSign]
      have hcs := Real.sin_sq_add_cos_sq θ
      set p := startA plane radius
      set q := startB plane radius
      set C := Real.cos θ
      set S := Real.sin θ
      set u := turnSign g.rot
      have key : (p * C + u * (q * S)) ^ 2 + (q * C - u * (p * S)) ^ 2 = p ^ 2 + q ^ 2 := by
        calc _ = (p ^ 2 + q ^ 2) * (C ^ 2 + u ^ 2 * S ^ 2) := by ring
          _ = _ := by rw [hu]; rw [one_mul, add_comm (C ^ 2), hcs, mul_one]
      unfold turnedOn
      split_ifs
      · show (p * C + u * (q * S)) ^ 2 ≤ p ^ 2 + q ^ 2
        nlinarith [sq_nonneg (q * C - u * (p * S))]
      · show (q * C - u * (p * S)) ^ 2 ≤ p ^ 2 + q ^ 2
        nlinarith [sq_nonneg (p * C + u * (q * S))]
    obtain ⟨d1, d2⟩ := abs_le.1 hd
    constructor <;> linarith

/-- The generator knows where the arc starts. -/
theorem radius_unique {g : CircGen ℝ} {radius radius' : V4 ℝ} {plane : Plane} {delta delta' : V4 ℝ}
    {rot rot' : Rot} {v v' : ℝ} (h : CircGen.new c delta radius plane rot v = .ok g)
    (h' : CircGen.new c delta' radius' plane rot' v' = .ok g) {ax : Axis}
    (hax : ax = axisA plane ∨ ax = axisB plane) (hp : 0 < c.ppm.get ax) (hs : OnSteps c radius ax)
    (hs' : OnSteps c radius' ax) : radius.get ax = radius'.get ax := by
  obtain ⟨_, _, hf⟩ := new_facts h
  obtain ⟨_, _, hf'⟩ := new_facts h'
  have hP : (0 : ℝ) < c.ppm.get ax := by exact_mod_cast hp
  obtain ⟨n, hn⟩ := hs
  obtain ⟨n', hn'⟩ := hs'
  have key : ∀ {m m' : ℤ}, PyNum.truncI ((-radius.get ax) * (c.ppm.get ax : ℝ)) = m →
      PyNum.truncI ((-radius'.get ax) * (c.ppm.get ax : ℝ)) = m' → m = m' →
      radius.get ax = radius'.get ax := by
    intro m m' h1 h2 he
    rw [neg_mul, hn, ← Int.cast_neg, truncI_int] at h1
    rw [neg_mul, hn', ← Int.cast_neg, truncI_int] at h2
    have : n = n' := by omega
    subst this
    exact mul_right_cancel₀ hP.ne' (hn.trans hn'.symm)
  rcases hax with rfl | rfl
  · refine key ?_ ?_ (hf.startA.symm.trans hf'.startA)
    all_goals simp only [arcSA_eq, startA, planeAxes_eq, mul_eq, ofRat_eq]
  · refine key ?_ ?_ (hf.startB.symm.trans hf'.startB)
    all_goals simp only [arcSB_eq, startB, planeAxes_eq, mul_eq, ofRat_eq]

theorem tabInv_circular (henv : ∀ tr, env.move tr = none) {ax : Axis} (hax : ax ≠ .e) (ht : StepTable c)
    (d r : V4 ℝ) (v : ℝ) (rot : Rot) : M.Pres (TabInv c ax) (moveCircular c env d r v rot) := by
  obtain ⟨hd, hp⟩ := ht.step ax hax
  have hP : (0 : ℝ) < c.ppm.get ax := by exact_mod_cast hp
  rintro s ⟨hn, hin, ih⟩
  have hpost := netInv_circular henv hd hp d r v rot s hn
  refine ⟨hpost, ?_⟩
  rcases moveCircular_moves henv d r v rot s with h | ⟨ce, g, lg, hcd, hcend, hnew, hlg, hpos, htr⟩
  · rw [h]; exact ⟨hin, ih⟩
  have hdel : g.delta = roundToSteps c ce ∧ g.plane = s.plane := by
    obtain ⟨_, _, hf⟩ := new_facts hnew; exact ⟨hf.delta_eq, hf.plane_eq⟩
  obtain ⟨hdel, hgp⟩ := hdel
  have hce := rts_steps hd ce
  have hdd := rts_steps hd d
  have hsub := get_sub_grid (gridV_roundToSteps (c := c) d) (gridV_roundToSteps (c := c) ce) ax
  have h1 := checkDelta_table ht.table hn.1 (gridV_roundToSteps _) hcd hax
  have hpos' : (moveCircular c env d r v rot s).2.pos.get ax =
      s.pos.get ax + (roundToSteps c d).get ax := by
    rw [hpos, get_add_grid (gridV_add _ _) (gridV_sub _ _), get_add_grid hn.1 (gridV_roundToSteps _),
      hsub]
    ring
  refine ⟨by rw [hpos']; exact h1, ?_⟩
  -- the pulses of the arc
  have harc : ∀ e0 e1, InsideArcs c (.move (.circular g) :: s.trace) → Sends c s.trace e0 →
      Emits c (.circular g) e1 → OnTable c ax (e0 ++ e1) ∧
        (netSteps c ax (e0 ++ e1) : ℝ) = (s.pos.get ax + (roundToSteps c ce).get ax) * c.ppm.get ax := by
    intro e0 e1 ha h0 he1
    obtain ⟨radius, plane, harc, hins⟩ := ha.1 g rfl
    have h3 := hn.2 (insideArcs_plain ha.2) e0 h0
    have hpl : plane = s.plane := by
      obtain ⟨_, _, hg', _⟩ := harc
      obtain ⟨_, _, hf⟩ := new_facts hg'
      rw [← hf.plane_eq, hgp]
    have hstep := arc_step harc hp (n := PyRound.rnd (ce.get ax * c.ppm.get ax)) (by rw [hdel, hce]) he1
    have hend : (netSteps c ax (e0 ++ e1) : ℝ) =
        (s.pos.get ax + (roundToSteps c ce).get ax) * c.ppm.get ax := by
      rw [netSteps_append (emits_announced he1 List.prefix_rfl), hstep, add_mul, hce, h3]
      push_cast; ring
    refine ⟨?_, hend⟩
    refine onTable_append (ih ha.2 e0 h0) (fun p hp => emits_announced he1 hp) fun p hpre => ?_
    have hcase : (ax = axisA plane ∨ ax = axisB plane) ∨ ax = axis3 plane := by
      cases plane <;> cases ax <;> simp [axisA, axisB, axis3] at hax ⊢
    rcases hcase with hc | hc
    · subst hpl
      have hp0 : s.pos.get ax = netSteps c ax e0 / (c.ppm.get ax : ℝ) := by
        rw [eq_div_iff hP.ne', h3]
      have hstep : ∀ {ax}, ax = axisA s.plane ∨ ax = axisB s.plane → DecimalStep c ax ∧ 0 < c.ppm.get ax :=
        fun {ax} h => ht.step ax (by rintro rfl; revert h; cases s.plane <;> simp [axisA, axisB])
      refine arc_table hax ht harc hc (by rw [← hp0]; exact hin)
        (fun T hT => ⟨(hins e0 T h0 hT ax hc).1, fun θ t0 t1 hout => ?_⟩) he1 hpre
      by_cases hl : T < 2 * Real.pi → ∀ θ', θ < θ' → θ' < T → ¬ Outermost s.plane radius g.rot θ'
      · exact (hins e0 T h0 hT ax hc).2 θ t0 t1 hout hl
      · obtain ⟨rot', v', hg', hgrid, _⟩ := harc
        obtain ⟨dA, qA⟩ := hstep (.inl rfl)
        obtain ⟨dB, qB⟩ := hstep (.inr rfl)
        have sA : OnSteps c (roundToSteps c r) (axisA s.plane) := ⟨_, rts_steps dA r⟩
        have sB : OnSteps c (roundToSteps c r) (axisB s.plane) := ⟨_, rts_steps dB r⟩
        have eA := radius_unique hg' hnew (.inl rfl) qA hgrid.radA sA
        have eB := radius_unique hg' hnew (.inr rfl) qB hgrid.radB sB
        obtain ⟨_, _, hf⟩ := new_facts hnew
        have hrot := hf.rot_eq
        have hE : endDist s.plane (roundToSteps c ce) (roundToSteps c r) ≠ 0 := by
          have := (angle_ok hf.angE).2.2.2.2
          rw [arcEA_eq, arcEB_eq] at this
          exact this.ne'
        have tAe : ∀ θ, turnedA s.plane radius g.rot θ = turnedA s.plane (roundToSteps c r) rot θ := by
          intro θ; unfold turnedA startA startB; rw [eA, eB, hrot]
        have tBe : ∀ θ, turnedB s.plane radius g.rot θ = turnedB s.plane (roundToSteps c r) rot θ := by
          intro θ; unfold turnedB startA startB; rw [eA, eB, hrot]
        have hT' : Sweep s.plane (roundToSteps c ce) (roundToSteps c r) rot T := by
          rw [hdel, hrot] at hT
          unfold Sweep startDist endDist startA startB endA endB at hT ⊢
          rw [eA, eB] at hT
          exact hT
        have hne : axisB s.plane ≠ axisA s.plane := by cases s.plane <;> simp [axisA, axisB]
        push Not at hl
        obtain ⟨hT2, θ', l1, l2, l3⟩ := hl
        have l3' : turnedA s.plane (roundToSteps c r) rot θ' = 0 ∨
            turnedB s.plane (roundToSteps c r) rot θ' = 0 := by
          rw [← tAe, ← tBe]
          rcases l3 with l3 | l3 <;> unfold OutermostOn turnedOn at l3
          · rw [if_pos rfl, if_neg hne] at l3; exact .inr l3
          · rw [if_neg hne, if_pos rfl] at l3; exact .inl l3
        have hcheck := arc_check dA dB qA qB hcend sA sB hE hT' t0 (.inr ⟨hT2, θ', l1, l2, l3'⟩)
        unfold OutermostOn at hout
        rw [← hp0]
        rcases hc with rfl | rfl
        · rw [if_pos rfl, turnedOn, if_neg hne, tBe] at hout
          rw [turnedOn, if_pos rfl, tAe, eA]
          exact hcheck.1 hin hout
        · rw [if_neg hne, turnedOn, if_pos rfl, tAe] at hout
          rw [turnedOn, if_neg hne, tBe, eB]
          exact hcheck.2 hin hout
    · obtain ⟨rot', v', hg', _, _⟩ := harc
      have h3e : (roundToSteps c ce).get ax = (roundToSteps c d).get ax := by
        obtain ⟨_, h4, _⟩ := circleEnd_ok hcend
        rw [← hpl, ← hc] at h4
        rw [roundToSteps_decimal hd, h4, hdd, rnd_int, roundToSteps_decimal hd]
      subst hc
      have h5 := (arc_train3 hg' he1 (n := PyRound.rnd (ce.get (axis3 plane) * c.ppm.get (axis3 plane)))
        hp (by rw [hdel, hce])).2 p hpre
      refine between_table ?_ ?_ h5
      · rw [← h3]
        exact ⟨mul_nonneg hin.1 hP.le, mul_le_mul_of_nonneg_right hin.2 hP.le⟩
      · rw [← h3, ← hce, h3e, ← add_mul]
        exact ⟨mul_nonneg h1.1 hP.le, mul_le_mul_of_nonneg_right h1.2 hP.le⟩
  rw [htr]
  rcases extraLinear_ok hlg with ⟨rfl, hz⟩ | ⟨l, rfl, hl⟩
  · intro ha evs he
    obtain ⟨e0, e1, rfl, h0, he1⟩ := sends_linear he
    exact (harc e0 e1 ha h0 he1).1
  · intro ha evs he
    obtain ⟨e01, e2, rfl, h0, he2⟩ := sends_linear he
    obtain ⟨e0, e1, rfl, h0, he1⟩ := sends_linear h0
    obtain ⟨h6, h7⟩ := harc e0 e1 ha.2 h0 he1
    refine onTable_append h6 (fun p hp => emits_announced he2 hp) fun p hpre => ?_
    have h5 := (linear_train (gridV_sub _ _) hl he2 hp
      (n := PyRound.rnd (d.get ax * c.ppm.get ax) - PyRound.rnd (ce.get ax * c.ppm.get ax))
      (by rw [hsub, sub_mul, hdd, hce]; push_cast; rw [sub_self]; norm_num)).2 p hpre
    refine between_table (h6 _ List.prefix_rfl) ?_ h5
    have e : (netSteps c ax (e0 ++ e1) : ℝ) + ((PyRound.rnd (d.get ax * c.ppm.get ax) -
        PyRound.rnd (ce.get ax * c.ppm.get ax) : ℤ) : ℝ) =
        (s.pos.get ax + (roundToSteps c d).get ax) * c.ppm.get ax := by
      rw [h7]; push_cast; rw [← hdd, ← hce]; ring
    rw [e]
    exact ⟨mul_nonneg h1.1 hP.le, mul_le_mul_of_nonneg_right h1.2 hP.le⟩

theorem table_nonneg (ht : TableOk c) {ax : Axis} (hax : ax ≠ .e) : (0 : ℝ) ≤ tableSize c ax := by
  obtain ⟨⟨hx0, hx⟩, ⟨hy0, hy⟩, ⟨hz0, hz⟩⟩ := ht
  cases ax
  · exact_mod_cast hx0
  · exact_mod_cast hy0
  · exact_mod_cast hz0
  · exact absurd rfl hax

/-- The head stays on the table. -/
theorem stays_on_table (henv : ∀ tr, env.move tr = none) {ax : Axis} (hax : ax ≠ .e)
    (ht : StepTable c) {s : MState ℝ} (hs : Reachable c env s) (ha : InsideArcs c s.trace)
    {evs : List (Event ℝ)} (he : Sends c s.trace evs) : OnTable c ax evs := by
  refine (reachable_moves (P := TabInv c ax) ?_ (tabInv_linear henv hax ht)
    (tabInv_circular henv hax ht) ?_ hs).2.2 ha evs he
  · have h0 := table_nonneg ht.table hax
    have hP : (0 : ℝ) < c.ppm.get ax := by exact_mod_cast (ht.step ax hax).2
    refine ⟨netInv_init, ?_, fun _ evs h => ?_⟩
    · change 0 ≤ (Coord.zero : V4 ℝ).get ax ∧ (Coord.zero : V4 ℝ).get ax ≤ _
      rw [get_zero]
      exact ⟨le_rfl, h0⟩
    · rw [sends_iff] at h
      change SendsG c [] evs at h
      cases h
      intro pre hp
      rw [List.prefix_nil.1 hp]
      simp only [netSteps, netFrom, Int.cast_zero]
      exact ⟨le_rfl, by positivity⟩
  · rintro s s' ⟨h1, h2, h3⟩ hp hm
    refine ⟨netInv_other s s' h1 hp hm, by rw [hp]; exact h2, fun ha evs he => ?_⟩
    refine h3 ((arcsAre_congr ?_ hm).1 ha) evs ((sends_congr hm).1 he)
    rintro tr tr' g h ⟨radius, plane, ha, hc⟩
    exact ⟨radius, plane, ha, lastInside_congr h hc⟩

end PyCNC
