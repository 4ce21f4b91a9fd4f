import Verif.Lemmas.HelixTime
import Verif.Lemmas.Pins
import Mathlib.Analysis.SpecialFunctions.Trigonometric.Bounds

/-!
# The events of an arc: how many they are and how far apart
-/

namespace PyCNC

open Spec Real

/-! ### Directions -/

section Dirs

variable {F : Type}

/-- How many direction commands there are. -/
def dirCount : List (Event F) → Nat
  | [] => 0
  | .dir _ :: r => dirCount r + 1
  | .pulse _ :: r => dirCount r

theorem room_le [PyNum F] {r : List (Event F)} (h : ∀ ev ∈ r, ¬ IsDir ev → ∃ τ, StepsAt τ ev) :
    room r ≤ 32 * dirCount r + 128 * (steps .x r + steps .y r + steps .z r + steps .e r) := by
  induction r with
  | nil => exact Nat.zero_le _
  | cons ev r ih =>
    have ih := ih fun e he => h e (by simp [he])
    rw [steps_cons .x, steps_cons .y, steps_cons .z, steps_cons .e]
    cases ev with
    | dir d => simp only [room, dirCount]; omega
    | pulse t =>
      obtain ⟨τ, ⟨ax, hax⟩, -⟩ := h (.pulse t) (by simp) (fun hd => hd)
      simp only [room, dirCount]
      have : steps ax [Event.pulse t] = 1 := by simp [steps, stepTimes, hax]
      cases ax <;> omega

variable [PyNum F] {c : Cfg} {g : Gen F} {dirAt : Axis → Nat → Int} {fires : Axis → Nat → Bool}

/-- The sum over the axes. -/
def overAxes (f : Axis → Nat → Nat) (it : V4 Nat) : Nat := f .x it.x + f .y it.y + f .z it.z + f .e it.e

/-- When the directions of each axis go through phases one after the other, there are not many
direction commands. -/
theorem run_dirCount (hpl : Planned c g dirAt fires) {phase : Axis → Nat → Nat}
    (hmono : ∀ ax i, phase ax i ≤ phase ax (i + 1))
    (hsame : ∀ ax i, phase ax i = phase ax (i + 1) → dirAt ax i = dirAt ax (i + 1)) {K : Nat}
    (hK : ∀ it, overAxes phase it ≤ K) (n : Nat) :
    ∀ st : GenState, dirCount (g.run c n st).1 + overAxes phase st.it ≤ K + 1 ∧
      ((∃ d, st.dir = some d ∧ ∀ ax, d.get ax = dirAt ax (st.it.get ax)) →
        dirCount (g.run c n st).1 + overAxes phase st.it ≤ K) := by
  induction n with
  | zero =>
    intro st
    have := hK st.it
    simp only [Gen.run, dirCount]
    exact ⟨by omega, fun _ => by omega⟩
  | succ n ih =>
    intro st
    have hk := hK st.it
    rcases next_cases c g st with ⟨e, _, h2⟩ | ⟨d, t, h1, h2⟩
    · rw [Gen.run, h2]
      simp only [dirCount]
      exact ⟨by omega, fun _ => by omega⟩
    · rcases h2 with ⟨hne, h2⟩ | ⟨_, _, h2⟩ | ⟨m, hd, hm, ⟨e, _, h2⟩ | ⟨am, ha, h2⟩⟩
      · rw [Gen.run, h2]
        simp only [dirCount]
        have hmatch := fun ax => (hpl _ _ _ h1 ax).1
        have := (ih ⟨st.it, some d⟩).2 ⟨d, rfl, hmatch⟩
        simp only at this
        refine ⟨by omega, fun ⟨d', e1, e2⟩ => ?_⟩
        exfalso
        apply hne
        rw [e1]
        congr 1
        have : ∀ ax, d.get ax = d'.get ax := fun ax => by rw [hmatch, e2]
        have hx := this .x
        have hy := this .y
        have hz := this .z
        have he := this .e
        cases d; cases d'
        simp only [V4.get] at hx hy hz he
        subst hx hy hz he
        rfl
      · rw [Gen.run, h2]
        simp only [dirCount]
        exact ⟨by omega, fun _ => by omega⟩
      · rw [Gen.run, h2]
        simp only [dirCount]
        exact ⟨by omega, fun _ => by omega⟩
      · rw [Gen.run, h2]
        simp only [dirCount]
        have adv : ∀ ax, (advanced t m am st.it).get ax = st.it.get ax ∨
            (advanced t m am st.it).get ax = st.it.get ax + 1 := by
          intro ax
          rw [advanced, get_ofFn]
          unfold fireAxis
          split
          · exact .inl rfl
          · split
            · exact .inl rfl
            · exact .inr rfl
        have hmatch := fun ax => (hpl _ _ _ h1 ax).1
        obtain ⟨i1, i2⟩ := ih ⟨advanced t m am st.it, st.dir⟩
        simp only at i1 i2
        have up : ∀ ax, phase ax (st.it.get ax) ≤ phase ax ((advanced t m am st.it).get ax) := by
          intro ax
          rcases adv ax with e | e <;> rw [e]
          exact hmono _ _
        have ux := up .x
        have uy := up .y
        have uz := up .z
        have ue := up .e
        simp only [V4.get] at ux uy uz ue
        by_cases heq : overAxes phase (advanced t m am st.it) = overAxes phase st.it
        · have same : ∀ ax, dirAt ax ((advanced t m am st.it).get ax) = dirAt ax (st.it.get ax) := by
            intro ax
            rcases adv ax with e | e
            · rw [e]
            · rw [e]
              refine (hsame ax _ ?_).symm
              unfold overAxes at heq
              cases ax <;> simp only [V4.get] at e ⊢ <;> rw [← e] <;> omega
          have := i2 ⟨d, hd.symm, fun ax => by rw [hmatch, same]⟩
          exact ⟨by omega, fun _ => by omega⟩
        · have hlt : overAxes phase st.it + 1 ≤ overAxes phase (advanced t m am st.it) := by
            unfold overAxes at heq ⊢
            omega
          exact ⟨by omega, fun _ => by omega⟩

end Dirs

section Arc

/-- The phases of an axis that goes to and fro: before its first turn, before its second turn, after
it, at the end. -/
def bouncePhase (R s d : Int) (total : Nat) (i : Nat) : Nat :=
  if total ≤ i then 3 else if d * s + (i + 1) ≤ R then 0 else if d * s + (i + 1) ≤ 3 * R then 1 else 2

theorem bouncePhase_mono {R s d : Int} {total : Nat} (hR : 0 < R) (i : Nat) :
    bouncePhase R s d total i ≤ bouncePhase R s d total (i + 1) ∧ bouncePhase R s d total i ≤ 3 := by
  unfold bouncePhase
  push_cast
  generalize d * s = z
  split_ifs <;> omega

theorem bouncePhase_same {R s d : Int} {total : Nat} {side : Bool} (h1 : -R ≤ s) (h2 : s ≤ R)
    (hd : d = 1 ∨ d = -1) (ht : (total : Int) ≤ 4 * R) {i : Nat}
    (h : bouncePhase R s d total i = bouncePhase R s d total (i + 1)) (hi : i + 1 < total) :
    (circularHelper s (i + 1) R side d).2.1 = (circularHelper s (i + 1 + 1) R side d).2.1 := by
  unfold bouncePhase at h
  push_cast at h
  rw [if_neg (show ¬ total ≤ i by omega), if_neg (show ¬ total ≤ i + 1 by omega)] at h
  rcases hd with rfl | rfl
  · rw [helper_up h1 h2 (by omega) (by omega), helper_up h1 h2 (by omega) (by omega)]
    simp only [one_mul] at h
    split_ifs at h ⊢ <;> first | rfl | (exfalso; omega)
  · rw [helper_down h2 (by omega), helper_down h2 (by omega)]
    simp only [neg_one_mul] at h
    split_ifs at h ⊢ <;> first | rfl | (exfalso; omega)

variable [PyRound] {c : Cfg} {delta radius : V4 ℝ} {plane : Plane} {rot : Rot} {v : ℝ} {g : CircGen ℝ}

/-- An arc has at most seven direction commands. -/
theorem arc_dirCount (h : GridArc c delta radius plane)
    (hg : CircGen.new c delta radius plane rot v = .ok g) {evs : List (Event ℝ)}
    (he : Emits c (.circular g) evs) : dirCount evs ≤ 7 := by
  obtain ⟨rfl, R, RB, A, B, EA, EB, hi, rA, rB, sA, sB, p1, p2, -, -, -, oA, oB, i1, i2, -, -⟩ :=
    arc_gen h hg
  let phase : Axis → Nat → Nat := fun ax i =>
    if ax = axisA g.plane then bouncePhase R A g.dirA g.itA.toNat i
    else if ax = axisB g.plane then bouncePhase RB B g.dirB g.itB.toNat i else 0
  have h1 : ∀ ax i, phase ax i ≤ phase ax (i + 1) := by
    intro ax i
    simp only [phase]
    split
    · exact (bouncePhase_mono p1 i).1
    · split
      · exact (bouncePhase_mono p2 i).1
      · exact le_rfl
  have h2 : ∀ ax i, phase ax i = phase ax (i + 1) → g.dirAt ax i = g.dirAt ax (i + 1) := by
    intro ax i hp
    simp only [phase] at hp
    unfold CircGen.dirAt
    have key : ∀ {R s d it : Int} {side : Bool}, -R ≤ s → s ≤ R → (d = 1 ∨ d = -1) → it ≤ 4 * R → 0 < R →
        bouncePhase R s d it.toNat i = bouncePhase R s d it.toNat (i + 1) →
        (if (i : Int) ≥ it then d else (circularHelper s (i + 1) R side d).2.1) =
        (if ((i + 1 : ℕ) : Int) ≥ it then d else (circularHelper s ((i + 1 : ℕ) + 1) R side d).2.1) := by
      intro R s d it side k1 k2 k3 k4 k5 k6
      by_cases hlt : i + 1 < it.toNat
      · rw [if_neg (by omega), if_neg (by push_cast; omega)]
        push_cast
        exact bouncePhase_same k1 k2 k3 (by omega) k6 hlt
      · have : it.toNat ≤ i := by
          by_contra hn
          unfold bouncePhase at k6
          rw [if_neg hn, if_pos (show it.toNat ≤ i + 1 by omega)] at k6
          split_ifs at k6 <;> omega
        rw [if_pos (by omega), if_pos (by push_cast; omega)]
    split
    · rename_i hax
      rw [if_pos hax, if_pos hax] at hp
      rw [rA, sA]
      exact key hi.rA.1 hi.rA.2 oA i1 p1 hp
    · rename_i hax
      rw [if_neg hax, if_neg hax] at hp
      split
      · rename_i hbx
        rw [if_pos hbx, if_pos hbx] at hp
        rw [rB, sB]
        exact key hi.rB.1 hi.rB.2 oB i2 p2 hp
      · rfl
  have h3 : ∀ it, overAxes phase it ≤ 6 := by
    intro it
    have a : ∀ i, bouncePhase R A g.dirA g.itA.toNat i ≤ 3 := fun i => (bouncePhase_mono p1 i).2
    have b : ∀ i, bouncePhase RB B g.dirB g.itB.toNat i ≤ 3 := fun i => (bouncePhase_mono p2 i).2
    have ax := a it.x
    have ay := a it.y
    have az := a it.z
    have bx := b it.x
    have bY := b it.y
    have bz := b it.z
    simp only [overAxes, phase]
    cases hpl : g.plane <;> simp [axisA, axisB] <;> omega
  obtain ⟨N, hN⟩ := he
  have := (run_dirCount (circ_planned c g) h1 h2 h3 N .init).1
  rw [hN N le_rfl] at this
  simp only at this
  omega

end Arc

/-! ### Time between pulses -/

theorem atTime_between {evs : List (Event ℝ)} {x y t : ℝ} {n : ℕ} (hx : AtTime evs x n)
    (hy : AtTime evs y n) (h1 : x ≤ t) (h2 : t ≤ y) : AtTime evs t n :=
  ⟨fun ax τ hτ => (hx.1 ax τ hτ).trans h1, fun ax τ hτ => h2.trans (hy.2 ax τ hτ)⟩

/-- The chord between two points of the circle. -/
theorem turned_chord (plane : Plane) (radius : V4 ℝ) (rot : Rot) (p q : ℝ) :
    (turnedA plane radius rot q - turnedA plane radius rot p) ^ 2 +
      (turnedB plane radius rot q - turnedB plane radius rot p) ^ 2 =
      2 * startDist plane radius ^ 2 * (1 - cos (q - p)) := by
  have h1 := sin_sq_add_cos_sq p
  have h2 := sin_sq_add_cos_sq q
  have hs : turnSign rot ^ 2 = 1 := by cases rot <;> simp [turnSign]
  unfold startDist turnedA turnedB
  rw [sq_sqrt (by positivity), cos_sub]
  generalize startA plane radius = a at *
  generalize startB plane radius = b at *
  generalize turnSign rot = σ at *
  linear_combination (a ^ 2 + b ^ 2) * (sin q - sin p) ^ 2 * hs + (a ^ 2 + b ^ 2) * h1 + (a ^ 2 + b ^ 2) * h2

/-- Where all chords are short, the way is short. -/
theorem short_turn {r δ : ℝ} (h0 : 0 ≤ δ) (h1 : δ ≤ 2 * π)
    (h : ∀ x, 0 ≤ x → x ≤ δ → r ^ 2 * (1 - cos x) ≤ 1 / 100) : r * δ ≤ 9 / 20 := by
  have hpi := pi_pos
  have hpi2 := pi_lt_d2
  rcases le_or_gt δ π with hle | hgt
  · have h2 := h δ h0 le_rfl
    have h3 := mul_le_sin (x := δ / 2) (by linarith) (by linarith)
    have h4 : 0 ≤ 2 / π * (δ / 2) := by positivity
    have h5 : 1 - cos δ = 2 * sin (δ / 2) ^ 2 := by
      have e := cos_two_mul (δ / 2)
      rw [show 2 * (δ / 2) = δ by ring] at e
      have := sin_sq_add_cos_sq (δ / 2)
      linarith
    have h6 : (2 / π * (δ / 2)) ^ 2 ≤ sin (δ / 2) ^ 2 := by gcongr
    have h7 : 2 / π * (δ / 2) = δ / π := by field_simp
    rw [h7] at h6
    have h8 : (r * (δ / π)) ^ 2 ≤ (1 / 14) ^ 2 := by
      have : r ^ 2 * (δ / π) ^ 2 ≤ r ^ 2 * sin (δ / 2) ^ 2 := mul_le_mul_of_nonneg_left h6 (by positivity)
      rw [h5] at h2
      rw [mul_pow]
      linarith
    have h9 : r * (δ / π) ≤ 1 / 14 := abs_le_of_sq_le_sq' h8 (by norm_num) |>.2
    have h10 : r * δ = r * (δ / π) * π := by field_simp
    rw [h10]
    have : r * (δ / π) * π ≤ 1 / 14 * π := mul_le_mul_of_nonneg_right h9 hpi.le
    linarith
  · have h2 := h π hpi.le hgt.le
    rw [cos_pi] at h2
    have h3 : r ≤ 1 / 14 := by
      refine abs_le_of_sq_le_sq' (a := r) (b := 1 / 14) ?_ (by norm_num) |>.2
      linarith
    have : r * δ ≤ 1 / 14 * (2 * π) := mul_le_mul h3 h1 h0 (by norm_num)
    linarith

section

variable [PyRound] {c : Cfg} {delta radius : V4 ℝ} {plane : Plane} {rot : Rot} {v : ℝ} {g : CircGen ℝ}
  {R RB A B uA uB : ℤ} {φ V ρ L s M : ℝ}

variable (hx : Helix c delta radius plane g V ρ L s) (hz : HelixTimes c delta radius plane v g V ρ L s M)

include hx hz

/-- Speeding up is short on a machine that is not slow. -/
theorem HelixTimes.acc_short (ha : 200 ≤ c.accel) : g.accT ≤ 9 := by
  have ha' : (200 : ℝ) ≤ c.accel := by exact_mod_cast ha
  have hL := hx.L_le
  have hM := hz.M0 hx
  rcases hz.shape with ⟨h1, h2, -⟩ | ⟨-, h2, -⟩
  · rw [h2]
    rw [div_le_iff₀ hz.a0] at h1 ⊢
    refine abs_le_of_sq_le_sq' (a := M) (b := 9 * c.accel) ?_ (by linarith) |>.2
    nlinarith
  · rw [h2, Real.sqrt_le_left (by norm_num), div_le_iff₀ hz.a0]
    linarith

theorem HelixTimes.lin_le : g.linT ≤ L / helixSpeed g V := by
  have hW := hz.speed_pos hx
  have ha := hz.a0
  rcases hz.shape with ⟨-, -, h⟩ | ⟨-, -, h⟩
  · rw [h]
    change _ / helixSpeed g V ≤ _
    gcongr
    have : 0 ≤ M ^ 2 / (c.accel : ℝ) := by positivity
    linarith
  · rw [h]
    have := hx.L0
    positivity

theorem HelixTimes.way_range (hl : 0 ≤ g.linT) {t : ℝ} (h0 : 0 ≤ t) (hT : t ≤ (Gen.circular g).totalTime) :
    0 ≤ helixWay g V L t ∧ helixWay g V L t ≤ L := by
  have hA := hz.acc_pos hx
  rw [hz.total hx] at hT
  have := travel_nonneg (k := 2 * g.accT) (by linarith) hA.le hl h0 hT
  exact ⟨le_min (mul_nonneg (hz.speed_pos hx).le this) hx.L0.le, min_le_right _ _⟩

theorem HelixTimes.way_mono (hl : 0 ≤ g.linT) {t t' : ℝ} (h0 : 0 ≤ t) (h1 : t ≤ t')
    (hT : t' ≤ (Gen.circular g).totalTime) : helixWay g V L t ≤ helixWay g V L t' := by
  have hA := hz.acc_pos hx
  rw [hz.total hx] at hT
  have := travel_mono (k := 2 * g.accT) (by linarith) hA.le hl h0 h1 hT
  exact min_le_min_right _ (mul_le_mul_of_nonneg_left this (hz.speed_pos hx).le)

/-- The way goes on, except at the ends. -/
theorem HelixTimes.way_goes (hl : 0 ≤ g.linT) {t t' : ℝ} (h0 : 0 ≤ t) (h1 : t ≤ t')
    (hT : t' ≤ (Gen.circular g).totalTime) :
    t' - t - g.accT ≤
      travel (2 * g.accT) g.accT g.linT t' - travel (2 * g.accT) g.accT g.linT t := by
  have hA := hz.acc_pos hx
  have htot := hz.total hx
  have e1 : 2 * (g.accT * g.accT / (2 * g.accT)) = g.accT := by field_simp
  have hend : travel (2 * g.accT) g.accT g.linT (2 * g.accT + g.linT) = g.accT + g.linT := by
    rw [travel_end (by linarith) hA.le hl (.inl rfl), e1]
  have k : ∀ {a b : ℝ}, 0 ≤ a → a ≤ b →
      travel (2 * g.accT) g.accT g.linT b - travel (2 * g.accT) g.accT g.linT a ≤ b - a := fun ha hb => by
    have := travel_slope (k := 2 * g.accT) (by linarith) hA.le hl ha hb
    rwa [div_self (by linarith), one_mul] at this
  have k1 := k (a := 0) (b := t) le_rfl h0
  have k2 := k (a := t') (b := 2 * g.accT + g.linT) (by linarith) (by rw [← htot]; exact hT)
  rw [travel_zero hA.le hl] at k1
  rw [hend] at k2
  linarith

/-- Where no pulse is sent the way is short. -/
theorem HelixTimes.still_way (ht : ArcTracks c delta radius plane rot g R RB A B uA uB φ)
    (hb : CircBase c g) (hl : 0 ≤ g.linT) {φs φe : ℝ} (hf : NewFacts c delta radius plane rot g φs φe)
    (hp : ∀ ax, 50 ≤ c.ppm.get ax) (hp1000 : ∀ ax, c.ppm.get ax ≤ 1000) {evs : List (Event ℝ)}
    (he : Emits c (.circular g) evs) {n : ℕ} {x y : ℝ} (h0 : 0 ≤ x) (hxy : x ≤ y)
    (hT : y ≤ (Gen.circular g).totalTime) (ax : AtTime evs x n) (ay : AtTime evs y n) :
    helixWay g V L y - helixWay g V L x ≤ 13 / 25 := by
  have hL := hx.L0
  have hA := hz.acc_pos hx
  have hT0 := hx.T0
  have hT2 := ht.ta.T2
  have hpp : ∀ a, (50 : ℝ) ≤ c.ppm.get a := fun a => by exact_mod_cast hp a
  set S := helixWay g V L with hS
  have hrng : ∀ t, x ≤ t → t ≤ y → 0 ≤ S t ∧ S t ≤ L := fun t h1 h2 =>
    hz.way_range hx hl (h0.trans h1) (h2.trans hT)
  have hmono : ∀ t, x ≤ t → t ≤ y → S x ≤ S t ∧ S t ≤ S y := fun t h1 h2 =>
    ⟨hz.way_mono hx hl h0 h1 (h2.trans hT), hz.way_mono hx hl (h0.trans h1) h2 hT⟩
  have hcont : Continuous S := by
    have : Continuous (travel (2 * g.accT) g.accT g.linT) :=
      continuous_iff_continuousAt.2 fun t => (hasDerivAt_travel _ _ _ t).continuousAt
    exact (continuous_const.mul this).min continuous_const
  set Δ := (S y - S x) / L with hΔ
  have hΔ0 : 0 ≤ Δ := div_nonneg (by linarith [(hmono y hxy le_rfl).1]) hL.le
  have hΔ1 : Δ ≤ 1 := by
    rw [hΔ, div_le_one hL]
    linarith [(hrng x le_rfl hxy).1, (hrng y hxy le_rfl).2]
  have hΔS : S y - S x = Δ * L := by rw [hΔ]; field_simp
  -- the circle
  have chord : ∀ δ, 0 ≤ δ → δ ≤ Δ * g.deltaAngle → startDist plane radius ^ 2 * (1 - cos δ) ≤ 1 / 100 := by
    intro δ d0 d1
    have hmem : S x + δ / g.deltaAngle * L ∈ Set.Icc (S x) (S y) := by
      have : δ / g.deltaAngle ≤ Δ := by rw [div_le_iff₀ hT0]; exact d1
      have h2 : δ / g.deltaAngle * L ≤ Δ * L := mul_le_mul_of_nonneg_right this hL.le
      have h3 : 0 ≤ δ / g.deltaAngle * L := by positivity
      exact ⟨by linarith, by linarith⟩
    obtain ⟨t, ⟨t1, t2⟩, e⟩ := intermediate_value_Icc hxy hcont.continuousOn hmem
    obtain ⟨p1, p2⟩ := hz.plane_at hx ht hb hl hp1000 he h0 (hxy.trans hT) ax
    obtain ⟨q1, q2⟩ := hz.plane_at hx ht hb hl hp1000 he (h0.trans t1) (t2.trans hT)
      (atTime_between ax ay t1 t2)
    have near : ∀ {P a b z : ℝ}, 50 ≤ P → |z - a * P| ≤ 5 / 2 → |z - b * P| ≤ 5 / 2 →
        (b - a) ^ 2 ≤ 1 / 100 := by
      intro P a b z hP k1 k2
      rw [abs_le] at k1 k2
      have k3 : |(b - a) * P| ≤ 5 := by rw [abs_le]; constructor <;> nlinarith
      rw [abs_mul, abs_of_pos (show 0 < P by linarith)] at k3
      have k4 : |b - a| ≤ 1 / 10 := by
        by_contra hn
        push Not at hn
        nlinarith
      calc (b - a) ^ 2 = |b - a| ^ 2 := (sq_abs _).symm
        _ ≤ (1 / 10) ^ 2 := by gcongr
        _ = 1 / 100 := by norm_num
    have n1 := near (hpp _) p1 q1
    have n2 := near (hpp _) p2 q2
    have key := turned_chord plane radius rot (S x / L * g.deltaAngle) (S t / L * g.deltaAngle)
    have e2 : S t / L * g.deltaAngle - S x / L * g.deltaAngle = δ := by rw [e]; field_simp; ring
    rw [e2] at key
    linarith
  have hturn := short_turn (mul_nonneg hΔ0 hT0.le)
    (by nlinarith [pi_pos] : Δ * g.deltaAngle ≤ 2 * π) chord
  have hρ := hz.radius_near hx fun a => lt_of_lt_of_le (by norm_num) (hp a)
  have hco : (50 : ℝ) ≤ coarse c plane := by
    have : 50 ≤ coarse c plane := le_min (hp _) (hp _)
    exact_mod_cast this
  have hρ2 : ρ ≤ startDist plane radius + 1 / 100 := by
    have : 1 / 2 / (coarse c plane : ℝ) ≤ 1 / 100 := by
      rw [div_le_iff₀ (by linarith)]; linarith
    rw [abs_le] at hρ
    linarith
  have harc : Δ * (g.deltaAngle * ρ) ≤ 51 / 100 + 1 / 250 := by
    have h1 : Δ * g.deltaAngle * ρ ≤ Δ * g.deltaAngle * (startDist plane radius + 1 / 100) :=
      mul_le_mul_of_nonneg_left hρ2 (mul_nonneg hΔ0 hT0.le)
    have h2 : Δ * g.deltaAngle ≤ 2 * π := by nlinarith [pi_pos]
    have := pi_lt_d2
    nlinarith
  -- the other axes
  have other : ∀ a, a = axis3 plane ∨ a = .e → (Δ * delta.get a) ^ 2 ≤ (13 / 250) ^ 2 := by
    intro a ha
    have k1 := hz.net_at hx ht hb hl hf hp1000 he h0 (hxy.trans hT) ax ha
    have k2 := hz.net_at hx ht hb hl hf hp1000 he (h0.trans hxy) hT ay ha
    rw [← hS] at k1 k2
    have e : S y / L * (delta.get a * c.ppm.get a) - S x / L * (delta.get a * c.ppm.get a) =
        Δ * delta.get a * c.ppm.get a := by rw [hΔ]; ring
    have k3 : |Δ * delta.get a * c.ppm.get a| ≤ 13 / 5 := by
      rw [← e]
      rw [abs_le] at k1 k2 ⊢
      constructor <;> linarith
    rw [abs_mul, abs_of_pos (show (0 : ℝ) < c.ppm.get a by linarith [hpp a])] at k3
    rw [sq_le_sq, abs_of_pos (show (0 : ℝ) < 13 / 250 by norm_num)]
    by_contra hn
    push Not at hn
    nlinarith [hpp a]
  have o3 := other _ (.inl rfl)
  have oE := other .e (.inr rfl)
  have hlen2 : (Δ * L) ^ 2 = (Δ * (g.deltaAngle * ρ)) ^ 2 + (Δ * delta.get (axis3 plane)) ^ 2 +
      (Δ * delta.get .e) ^ 2 := by
    have : L ^ 2 = (g.deltaAngle * ρ) ^ 2 + delta.get (axis3 plane) ^ 2 + delta.e ^ 2 := by
      rw [hz.len, sq_sqrt (by positivity)]
    rw [mul_pow, this]
    simp only [V4.get]
    ring
  have hρ0 := hx.ρ0
  have harc2 : (Δ * (g.deltaAngle * ρ)) ^ 2 ≤ (51 / 100 + 1 / 250) ^ 2 := by
    have : 0 ≤ Δ * (g.deltaAngle * ρ) := by positivity
    gcongr
  rw [hΔS]
  refine abs_le_of_sq_le_sq' (a := Δ * L) (b := 13 / 25) ?_ (by norm_num) |>.2
  rw [hlen2]
  linarith

/-- Two successive pulses of an arc are at most 60 seconds apart. -/
theorem HelixTimes.still (ht : ArcTracks c delta radius plane rot g R RB A B uA uB φ)
    (hb : CircBase c g) (hl : 0 ≤ g.linT) {φs φe : ℝ} (hf : NewFacts c delta radius plane rot g φs φe)
    (hp : ∀ ax, 50 ≤ c.ppm.get ax) (hp1000 : ∀ ax, c.ppm.get ax ≤ 1000) (ha : 200 ≤ c.accel)
    {evs : List (Event ℝ)}
    (he : Emits c (.circular g) evs) {n : ℕ} {x y : ℝ} (h0 : 0 ≤ x) (hxy : x ≤ y)
    (hT : y ≤ (Gen.circular g).totalTime) (ax : AtTime evs x n) (ay : AtTime evs y n) : y ≤ x + 60 := by
  have hW := hz.speed_pos hx
  have hA := hz.acc_pos hx
  have hA9 := hz.acc_short hx ha
  have hlin := hz.lin_le hx
  have htot := hz.total hx
  have hfit := hz.fits hx
  have hW60 : 1 / 61 ≤ helixSpeed g V := by
    have := abs_le.1 (hz.speed_near hx)
    have := hx.s_ge
    linarith
  -- before the end of the way
  have before : ∀ t, x ≤ t → t ≤ y → helixSpeed g V * travel (2 * g.accT) g.accT g.linT t ≤ L →
      t ≤ x + 32 + g.accT := by
    intro t t1 t2 hle
    have k1 := hz.still_way hx ht hb hl hf hp hp1000 he h0 t1 (t2.trans hT) ax (atTime_between ax ay t1 t2)
    have k2 := hz.way_goes hx hl h0 t1 (t2.trans hT)
    have k3 := travel_mono (k := 2 * g.accT) (by linarith) hA.le hl h0 t1 (by rw [← htot]; exact t2.trans hT)
    have k4 := mul_le_mul_of_nonneg_left k3 hW.le
    unfold helixWay at k1
    rw [min_eq_left hle, min_eq_left (k4.trans hle), ← mul_sub] at k1
    by_contra hn
    push Not at hn
    have k5 : 32 < travel (2 * g.accT) g.accT g.linT t - travel (2 * g.accT) g.accT g.linT x := by linarith
    nlinarith
  by_cases hle : helixSpeed g V * travel (2 * g.accT) g.accT g.linT y ≤ L
  · have := before y hxy le_rfl hle
    linarith
  · push Not at hle
    by_cases hle2 : helixSpeed g V * travel (2 * g.accT) g.accT g.linT x ≤ L
    · have hcont : Continuous fun t => helixSpeed g V * travel (2 * g.accT) g.accT g.linT t :=
        continuous_const.mul (continuous_iff_continuousAt.2 fun t =>
          (hasDerivAt_travel _ _ _ t).continuousAt)
      obtain ⟨t, ⟨t1, t2⟩, e⟩ := intermediate_value_Icc hxy hcont.continuousOn ⟨hle2, hle.le⟩
      simp only at e
      have k1 := before t t1 t2 e.le
      have k2 := travel_slope (k := 2 * g.accT) (by linarith) hA.le hl le_rfl (h0.trans t1)
      rw [div_self (by linarith), one_mul, travel_zero hA.le hl] at k2
      have k3 : L / helixSpeed g V ≤ t := by
        rw [div_le_iff₀ hW, ← e]
        nlinarith
      rw [htot] at hT
      linarith
    · push Not at hle2
      have k2 := travel_slope (k := 2 * g.accT) (by linarith) hA.le hl le_rfl h0
      rw [div_self (by linarith), one_mul, travel_zero hA.le hl] at k2
      have k3 : L / helixSpeed g V ≤ x := by
        rw [div_le_iff₀ hW]
        nlinarith
      rw [htot] at hT
      linarith

end

section Stamps

variable [PyRound]

/-- Before and at a pulse. -/
theorem atTime_split {evs pre r : List (Event ℝ)} {t : V4 (Option ℝ)} {τ : ℝ}
    (hat : ∀ ev ∈ evs, ¬ IsDir ev → ∃ τ, StepsAt τ ev)
    (hs : evs.Pairwise fun e₁ e₂ => ∀ τ₁ τ₂, StepsAt τ₁ e₁ → StepsAt τ₂ e₂ → τ₁ ≤ τ₂)
    (hev : evs = pre ++ .pulse t :: r) (hτ : StepsAt τ (.pulse t)) :
    AtTime evs τ pre.length ∧ AtTime evs τ (pre.length + 1) := by
  have hmem : ∀ {l : List (Event ℝ)} {ax : Axis} {σ : ℝ}, (∀ ev ∈ l, ev ∈ evs) →
      σ ∈ stepTimes ax l → ∃ ev ∈ l, StepsAt σ ev := by
    intro l ax σ hl hσ
    obtain ⟨t, h1, h2⟩ := mem_stepTimes hσ
    obtain ⟨τ', h3⟩ := hat _ (hl _ h1) (fun h => h)
    have : σ = τ' := h3.2 ax σ h2
    subst this
    exact ⟨_, h1, h3⟩
  have hs' := hs
  rw [hev] at hs'
  have hs1 := List.pairwise_append.1 hs'
  have hs2 := List.pairwise_cons.1 hs1.2.1
  have same : ∀ σ, StepsAt σ (.pulse t) → σ = τ := by
    rintro σ ⟨⟨ax, hax⟩, -⟩
    exact hτ.2 ax σ hax
  have t0 : evs.take pre.length = pre := by rw [hev]; simp
  have d0 : evs.drop pre.length = .pulse t :: r := by rw [hev]; simp
  have t1 : evs.take (pre.length + 1) = pre ++ [.pulse t] := by
    rw [hev, show pre ++ .pulse t :: r = (pre ++ [.pulse t]) ++ r by simp]
    exact List.take_left' (by simp)
  have d1 : evs.drop (pre.length + 1) = r := by
    rw [hev, show pre ++ .pulse t :: r = (pre ++ [.pulse t]) ++ r by simp]
    exact List.drop_left' (by simp)
  have before : ∀ ev ∈ pre, ∀ σ, StepsAt σ ev → σ ≤ τ := fun ev h σ hσ =>
    hs1.2.2 ev h _ (by simp) σ τ hσ hτ
  have after : ∀ ev ∈ r, ∀ σ, StepsAt σ ev → τ ≤ σ := fun ev h σ hσ => hs2.1 ev h τ σ hτ hσ
  refine ⟨⟨fun ax σ hσ => ?_, fun ax σ hσ => ?_⟩, fun ax σ hσ => ?_, fun ax σ hσ => ?_⟩
  · rw [t0] at hσ
    obtain ⟨ev, h1, h2⟩ := hmem (fun ev h => by rw [hev]; simp [h]) hσ
    exact before ev h1 σ h2
  · rw [d0] at hσ
    obtain ⟨ev, h1, h2⟩ := hmem (fun ev h => by rw [hev]; exact List.mem_append_right _ h) hσ
    rcases List.mem_cons.1 h1 with rfl | h1
    · exact (same σ h2).ge
    · exact after ev h1 σ h2
  · rw [t1] at hσ
    obtain ⟨ev, h1, h2⟩ := hmem (fun ev h => by
      rw [hev]
      rcases List.mem_append.1 h with h | h
      · simp [h]
      · rw [List.mem_singleton.1 h]; simp) hσ
    rcases List.mem_append.1 h1 with h1 | h1
    · exact before ev h1 σ h2
    · rw [List.mem_singleton.1 h1] at h2
      exact (same σ h2).le
  · rw [d1] at hσ
    obtain ⟨ev, h1, h2⟩ := hmem (fun ev h => by rw [hev]; simp [h]) hσ
    exact after ev h1 σ h2

/-- The stamps of events of which some may be directions and that are not far apart. -/
theorem stamps_of_still (len : Nat) {evs : List (Event ℝ)} {T : ℝ}
    (hat : ∀ ev ∈ evs, ¬ IsDir ev → ∃ τ, StepsAt τ ev)
    (hs : evs.Pairwise fun e₁ e₂ => ∀ τ₁ τ₂, StepsAt τ₁ e₁ → StepsAt τ₂ e₂ → τ₁ ≤ τ₂)
    (hT : ∀ ev ∈ evs, ∀ τ, StepsAt τ ev → 0 ≤ τ ∧ τ ≤ T)
    (H : ∀ n x y, 0 ≤ x → x ≤ y → y ≤ T → AtTime evs x n → AtTime evs y n → y ≤ x + 60) :
    ∃ ks, Stamps evs ks ∧ ShortGaps len 0 ks := by
  have key : ∀ (r pre : List (Event ℝ)) (x : ℝ) (prev : Int), evs = pre ++ r → 0 ≤ x →
      AtTime evs x pre.length → (prev : ℝ) ≤ x * 1000000 + 1 / 2 + len →
      x * 1000000 - 1 / 2 ≤ prev → ∃ ks, Stamps r ks ∧ ShortGaps len prev ks := by
    intro r
    induction r with
    | nil => exact fun _ _ _ _ _ _ _ _ => ⟨[], .nil, trivial⟩
    | cons ev r ih =>
      intro pre x prev hev h0 ha h1 h2
      have hev' : evs = (pre ++ [ev]) ++ r := by rw [hev]; simp
      cases ev with
      | dir d =>
        obtain ⟨ks, g1, g2⟩ := ih (pre ++ [.dir d]) x prev hev' h0 (by
          have t0 : evs.take pre.length = pre := by rw [hev]; simp
          have d0 : evs.drop pre.length = .dir d :: r := by rw [hev]; simp
          have e : (pre ++ [Event.dir (F := ℝ) d]).length = pre.length + 1 := by simp
          have t1 : evs.take (pre.length + 1) = pre ++ [.dir d] := by
            rw [hev']; exact List.take_left' (by simp)
          have d1 : evs.drop (pre.length + 1) = r := by
            rw [hev']; exact List.drop_left' (by simp)
          obtain ⟨a1, a2⟩ := ha
          rw [t0] at a1
          rw [d0] at a2
          rw [e]
          refine ⟨fun ax τ hτ => ?_, fun ax τ hτ => ?_⟩
          · rw [t1, stepTimes_append] at hτ
            refine a1 ax τ ?_
            simpa [stepTimes] using hτ
          · rw [d1] at hτ
            refine a2 ax τ ?_
            rw [stepTimes]
            exact hτ) h1 h2
        exact ⟨ks, .dir g1, g2⟩
      | pulse t =>
        obtain ⟨τ, hτ⟩ := hat (.pulse t) (by rw [hev]; simp) (fun h => h)
        obtain ⟨a1, a2⟩ := atTime_split hat hs hev hτ
        have hx : x ≤ τ := by
          obtain ⟨⟨ax, hax⟩, -⟩ := hτ
          refine ha.2 ax τ ?_
          rw [hev, List.drop_left, stepTimes_cons]
          simp [stepTimes, hax]
        obtain ⟨τ0, τT⟩ := hT (.pulse t) (by rw [hev]; simp) τ hτ
        have h60 := H _ x τ h0 hx τT ha a1
        have n1 := rnd_le (τ * 1000000)
        have n2 := le_rnd (τ * 1000000)
        have hlen : (0 : ℝ) ≤ len := Nat.cast_nonneg _
        have hk : PyNum.roundI (τ *ₚ PyNum.ofRat 1000000) = PyRound.rnd (τ * 1000000) := by simp
        obtain ⟨ks, g1, g2⟩ := ih (pre ++ [.pulse t]) τ (PyRound.rnd (τ * 1000000) + len) hev' τ0
          (by simpa using a2) (by push_cast; linarith) (by push_cast; linarith)
        refine ⟨_, .pulse hτ g1, ?_⟩
        rw [hk]
        refine ⟨?_, g2⟩
        have : (PyRound.rnd (τ * 1000000) : ℝ) - prev < 2 ^ 26 := by norm_num; linarith
        exact_mod_cast this
  refine key evs [] 0 0 rfl le_rfl ⟨fun ax τ hτ => ?_, fun ax τ hτ => ?_⟩ (by
    have : (0 : ℝ) ≤ len := Nat.cast_nonneg _
    push_cast; linarith) (by push_cast; linarith)
  · simp [stepTimes] at hτ
  · rw [List.length_nil, List.drop_zero] at hτ
    obtain ⟨t, h1, h2⟩ := mem_stepTimes hτ
    obtain ⟨σ, h3⟩ := hat _ h1 (fun h => h)
    have : τ = σ := h3.2 ax τ h2
    subst this
    exact (hT _ h1 τ h3).1

end Stamps

end PyCNC
