import Verif.Lemmas.Helix
import Verif.Lemmas.ArcTime
import Verif.Lemmas.Feed

/-!
# Where an arc with a third axis or the extruder is at a given time
-/

set_option linter.unusedSectionVars false

namespace PyCNC

open Spec Real

/-- Times beyond the end are sent at the end. -/
theorem travel_warp_min {k A B p : ℝ} (hk : 0 < k) (hA : 0 ≤ A) (hB : 0 ≤ B)
    (h : k = 2 * A ∨ B = 0) (hp : 0 ≤ p) :
    travel k A B (warp k A B p) = min p (2 * (A * A / k) + B) := by
  rcases le_total p (2 * (A * A / k) + B) with hpe | hpe
  · rw [min_eq_left hpe]
    exact travel_warp hk hA hB h hp hpe
  · rw [min_eq_right hpe]
    have hU : 0 ≤ 2 * (A * A / k) + B := by positivity
    refine le_antisymm ?_ ?_
    · rw [← travel_end hk hA hB h]
      exact travel_mono hk hA hB (warp_nonneg hk.le hA hB hp) (warp_le_total hk.le hA hB hp) le_rfl
    · have h1 := travel_warp hk hA hB h hU le_rfl
      calc _ = travel k A B (warp k A B (2 * (A * A / k) + B)) := h1.symm
        _ ≤ _ := travel_mono hk hA hB (warp_nonneg hk.le hA hB hU) (warp_mono hk.le hA hB hU hpe)
            (warp_le_total hk.le hA hB hp)

/-- A vector near a multiple of a unit vector has nearly this length. -/
theorem unit_near {α β γ s ε W p q r : ℝ} (hu : α ^ 2 + β ^ 2 + γ ^ 2 = 1) (hα : 0 ≤ α) (hβ : 0 ≤ β)
    (hγ : 0 ≤ γ) (hW : 0 ≤ W) (hε : 0 < ε) (hs : 100 * ε ≤ s) (h1 : |p - α * s| ≤ ε)
    (h2 : |q - β * s| ≤ ε) (h3 : |r - γ * s| ≤ ε) (h : W ^ 2 = p ^ 2 + q ^ 2 + r ^ 2) :
    |W - s| ≤ 2 * ε := by
  have hsum : α + β + γ ≤ 9 / 5 := by
    nlinarith [sq_nonneg (α - β), sq_nonneg (β - γ), sq_nonneg (α - γ)]
  have hs0 : 0 < s := by linarith
  obtain ⟨x, rfl⟩ : ∃ x, p = α * s + x := ⟨p - α * s, by ring⟩
  obtain ⟨y, rfl⟩ : ∃ y, q = β * s + y := ⟨q - β * s, by ring⟩
  obtain ⟨z, rfl⟩ : ∃ z, r = γ * s + z := ⟨r - γ * s, by ring⟩
  rw [add_sub_cancel_left, abs_le] at h1 h2 h3
  have e : W ^ 2 = s ^ 2 + 2 * s * (α * x + β * y + γ * z) + (x ^ 2 + y ^ 2 + z ^ 2) := by
    rw [h]
    have : s ^ 2 = (α ^ 2 + β ^ 2 + γ ^ 2) * s ^ 2 := by rw [hu, one_mul]
    rw [this]
    ring
  have c1 : α * x + β * y + γ * z ≤ 9 / 5 * ε := by
    have a1 := mul_le_mul_of_nonneg_left h1.2 hα
    have a2 := mul_le_mul_of_nonneg_left h2.2 hβ
    have a3 := mul_le_mul_of_nonneg_left h3.2 hγ
    have a4 := mul_le_mul_of_nonneg_right hsum hε.le
    linarith
  have c2 : -(9 / 5 * ε) ≤ α * x + β * y + γ * z := by
    have a1 := mul_le_mul_of_nonneg_left h1.1 hα
    have a2 := mul_le_mul_of_nonneg_left h2.1 hβ
    have a3 := mul_le_mul_of_nonneg_left h3.1 hγ
    have a4 := mul_le_mul_of_nonneg_right hsum hε.le
    linarith
  have a1 : x ^ 2 ≤ ε ^ 2 := sq_le_sq' h1.1 h1.2
  have a2 : y ^ 2 ≤ ε ^ 2 := sq_le_sq' h2.1 h2.2
  have a3 : z ^ 2 ≤ ε ^ 2 := sq_le_sq' h3.1 h3.2
  have b1 := mul_le_mul_of_nonneg_left c1 (show 0 ≤ 2 * s by linarith)
  have b2 := mul_le_mul_of_nonneg_left c2 (show 0 ≤ 2 * s by linarith)
  have b3 := mul_le_mul_of_nonneg_right hs hε.le
  have b4 : 0 ≤ s * ε := by positivity
  rw [abs_le]
  constructor
  · have : (s - 2 * ε) ^ 2 ≤ W ^ 2 := by
      rw [e]
      have := sq_nonneg x
      have := sq_nonneg y
      have := sq_nonneg z
      linarith [show (s - 2 * ε) ^ 2 = s ^ 2 - 4 * (s * ε) + 4 * ε ^ 2 by ring,
        show 2 * s * -(9 / 5 * ε) = -(18 / 5) * (s * ε) by ring, show 100 * ε * ε = 100 * ε ^ 2 by ring]
    have := le_of_sq_le_sq this hW
    linarith
  · have : W ^ 2 ≤ (s + 2 * ε) ^ 2 := by
      rw [e]
      linarith [show (s + 2 * ε) ^ 2 = s ^ 2 + 4 * (s * ε) + 4 * ε ^ 2 by ring,
        show 2 * s * (9 / 5 * ε) = (18 / 5) * (s * ε) by ring, sq_nonneg ε]
    have := le_of_sq_le_sq this (by linarith)
    linarith

variable [PyRound]

section

variable {c : Cfg} {delta radius : V4 ℝ} {plane : Plane} {rot : Rot} {v : ℝ} {g : CircGen ℝ}
  {R RB A B uA uB : ℤ} {φ V ρ L s M : ℝ}

/-- The speed on the way. -/
noncomputable def helixSpeed (g : CircGen ℝ) (V : ℝ) : ℝ := √(V ^ 2 + g.vel3 ^ 2 + g.velE ^ 2)

/-- The way done at a time. -/
noncomputable def helixWay (g : CircGen ℝ) (V L t : ℝ) : ℝ :=
  min (helixSpeed g V * travel (2 * g.accT) g.accT g.linT t) L

variable (hx : Helix c delta radius plane g V ρ L s) (hz : HelixTimes c delta radius plane v g V ρ L s M)

include hx hz

theorem HelixTimes.M0 : 0 < M := lt_of_lt_of_le hx.V0 hz.V_le

theorem HelixTimes.speed_pos : 0 < helixSpeed g V := by
  have := hx.V0
  exact Real.sqrt_pos.2 (by positivity)

theorem HelixTimes.speed_sq : helixSpeed g V ^ 2 = V ^ 2 + g.vel3 ^ 2 + g.velE ^ 2 :=
  Real.sq_sqrt (by positivity)

theorem HelixTimes.M_le : M ≤ helixSpeed g V := by
  have h := hz.speed_sq hx
  have h0 := hz.speed_pos hx
  have : M ^ 2 ≤ helixSpeed g V ^ 2 := by
    rw [h]
    rcases hz.mem with e | e | e <;> rw [e] <;> nlinarith [sq_nonneg V, sq_nonneg g.vel3, sq_nonneg g.velE]
  exact le_of_sq_le_sq this h0.le

theorem HelixTimes.le_M : helixSpeed g V ≤ 2 * M := by
  have h := hz.speed_sq hx
  have h0 := hz.M0 hx
  have h1 : V ^ 2 ≤ M ^ 2 := by have := hx.V0; have := hz.V_le; gcongr
  have h2 : g.vel3 ^ 2 ≤ M ^ 2 := by have := hz.v3_nonneg; have := hz.v3_le; gcongr
  have h3 : g.velE ^ 2 ≤ M ^ 2 := by have := hz.vE_nonneg; have := hz.vE_le; gcongr
  have : helixSpeed g V ^ 2 ≤ (2 * M) ^ 2 := by rw [h]; nlinarith
  exact le_of_sq_le_sq this (by linarith)

theorem HelixTimes.acc_pos : 0 < g.accT := by
  have h0 := hz.M0 hx
  have ha := hz.a0
  have hL := hx.L0
  rcases hz.shape with ⟨-, h, -⟩ | ⟨-, h, -⟩ <;> rw [h]
  · positivity
  · exact Real.sqrt_pos.2 (by positivity)

/-- The rounding of the speeds changes the speed on the way little. -/
theorem HelixTimes.speed_near : |helixSpeed g V - s| ≤ 2 / 10 ^ 10 := by
  have hL := hx.L0
  have hsq := hz.speed_sq hx
  have hW := hz.speed_pos hx
  have h1 := hx.arc
  have h2 := hx.vel3
  have h3 := hx.velE
  have hlen : (g.deltaAngle * ρ / L) ^ 2 + (|delta.get (axis3 plane)| / L) ^ 2 + (|delta.e| / L) ^ 2 = 1 := by
    have : L ^ 2 = (g.deltaAngle * ρ) ^ 2 + delta.get (axis3 plane) ^ 2 + delta.e ^ 2 := by
      conv_lhs => rw [hz.len]
      exact Real.sq_sqrt (by positivity)
    rw [div_pow, div_pow, div_pow, sq_abs, sq_abs, ← add_div, ← add_div, ← this]
    exact div_self (by positivity)
  have p1 : 0 ≤ g.deltaAngle * ρ / L := by have := hx.lowArc; linarith
  have p2 : 0 ≤ |delta.get (axis3 plane)| / L := by positivity
  have p3 : 0 ≤ |delta.e| / L := by positivity
  generalize g.deltaAngle * ρ / L = α at *
  generalize |delta.get (axis3 plane)| / L = β at *
  generalize |delta.e| / L = γ at *
  refine (unit_near hlen p1 p2 p3 hW.le (by norm_num) ?_ h1 h2 h3 hsq).trans (by norm_num)
  have := hx.s_ge
  norm_num at this ⊢
  linarith

/-- The speeds are in proportion. -/
theorem HelixTimes.share {x u : ℝ} (h0 : 0 ≤ x / L) (h1 : x / L ≤ 1) (hu : |u - x / L * s| ≤ 1 / 10 ^ 10) :
    |u - x / L * helixSpeed g V| ≤ 3 / 10 ^ 10 := by
  have hn := hz.speed_near hx
  have e : u - x / L * helixSpeed g V = (u - x / L * s) - x / L * (helixSpeed g V - s) := by ring
  rw [e]
  refine (abs_sub _ _).trans ?_
  rw [abs_mul, abs_of_nonneg h0]
  have : x / L * |helixSpeed g V - s| ≤ 1 * (2 / 10 ^ 10) := by gcongr
  norm_num at *
  linarith

theorem HelixTimes.shares : (g.deltaAngle * ρ / L ≤ 1) ∧ |delta.get (axis3 plane)| / L ≤ 1 ∧
    |delta.e| / L ≤ 1 := by
  have hL := hx.L0
  have : L ^ 2 = (g.deltaAngle * ρ) ^ 2 + delta.get (axis3 plane) ^ 2 + delta.e ^ 2 := by
    conv_lhs => rw [hz.len]
    exact Real.sq_sqrt (by positivity)
  refine ⟨?_, ?_, ?_⟩ <;> rw [div_le_one hL]
  · refine le_of_sq_le_sq ?_ hL.le
    nlinarith [sq_nonneg (delta.get (axis3 plane)), sq_nonneg delta.e]
  · refine le_of_sq_le_sq ?_ hL.le
    rw [sq_abs]
    nlinarith [sq_nonneg (g.deltaAngle * ρ), sq_nonneg delta.e]
  · refine le_of_sq_le_sq ?_ hL.le
    rw [sq_abs]
    nlinarith [sq_nonneg (g.deltaAngle * ρ), sq_nonneg (delta.get (axis3 plane))]

/-- The way fits into the computed time. -/
theorem HelixTimes.fits : L / helixSpeed g V ≤ g.accT + g.linT := by
  have hW := hz.speed_pos hx
  have hM := hz.M0 hx
  have hMW := hz.M_le hx
  have ha := hz.a0
  have hL := hx.L0
  rcases hz.shape with ⟨-, h2, h3⟩ | ⟨h1, h2, h3⟩
  · rw [h2, h3]
    change _ ≤ _ + (L - M ^ 2 / c.accel) / helixSpeed g V
    rw [div_le_iff₀ hW, add_mul, div_mul_cancel₀ _ hW.ne']
    have : M ^ 2 / c.accel ≤ M / c.accel * helixSpeed g V := by
      rw [pow_two, mul_div_right_comm]
      gcongr
    linarith
  · rw [h2, h3, add_zero]
    refine (div_le_div_of_nonneg_left hL.le hM hMW).trans ?_
    rw [Real.le_sqrt (by positivity) (by positivity), div_pow, div_le_div_iff₀ (by positivity) ha]
    rw [lt_div_iff₀ ha] at h1
    nlinarith

theorem HelixTimes.time_le : L / helixSpeed g V ≤ 900001 := by
  have hW := hz.speed_pos hx
  have h1 := (abs_le.1 (hz.speed_near hx)).1
  have h2 := hx.s_ge
  rw [div_le_iff₀ hW]
  have := hx.L_le
  norm_num at h1 h2
  linarith

/-- The radius that is driven is near the programmed one. -/
theorem HelixTimes.radius_near (hp0 : ∀ ax, 0 < c.ppm.get ax) :
    |ρ - startDist plane radius| ≤ 1 / 2 / coarse c plane := by
  have key : ∀ p : ℚ, 0 < p → ρ * p = PyRound.rnd (startDist plane radius * p) →
      |ρ - startDist plane radius| ≤ 1 / 2 / p := fun p hp e => by
    have hp : (0 : ℝ) < p := by exact_mod_cast hp
    have := PyRound.near (startDist plane radius * p)
    rw [← e, ← sub_mul, abs_mul, abs_of_pos hp] at this
    rw [le_div_iff₀ hp]
    exact this
  unfold coarse
  rcases min_choice (c.ppm.get (axisA plane)) (c.ppm.get (axisB plane)) with hx' | hx' <;> rw [hx']
  · exact key _ (hp0 _) hz.radA
  · exact key _ (hp0 _) hz.radB

theorem HelixTimes.total : (Gen.circular g).totalTime = 2 * g.accT + g.linT := by
  simp [Gen.totalTime, Gen.accT, Gen.linT]; ring

variable (ht : ArcTracks c delta radius plane rot g R RB A B uA uB φ) (hb : CircBase c g) (hl : 0 ≤ g.linT)

include ht hb hl

/-- The pulses before and after a moment, in uniform time. -/
theorem HelixTimes.sides {evs : List (Event ℝ)} (he : Emits c (.circular g) evs) {n : ℕ} {t : ℝ}
    (h0 : 0 ≤ t) (hT : t ≤ (Gen.circular g).totalTime) (ha : AtTime evs t n) (ax : Axis) :
    (∀ i < steps ax (evs.take n), min (arcPt c rot g R RB uA uB φ ax i) (g.accT + g.linT) ≤
      travel (2 * g.accT) g.accT g.linT t) ∧
    (steps ax (evs.take n) < g.totals ax → travel (2 * g.accT) g.accT g.linT t ≤
      arcPt c rot g R RB uA uB φ ax (steps ax (evs.take n))) := by
  have hA := hz.acc_pos hx
  have htm := arc_timed ht hb hl
  rw [hz.total hx] at hT
  obtain ⟨m1, m2⟩ := ht.moment hb hl he ha ax
  have hle : steps ax (evs.take n) ≤ g.totals ax := by
    rw [← emits_take he n]; exact (circ_steps c g n ax).1
  have e1 : 2 * (g.accT * g.accT / (2 * g.accT)) = g.accT := by field_simp
  have inv : ∀ i < g.totals ax, travel (2 * g.accT) g.accT g.linT
      ((Gen.circular g).sendTime c (arcPt c rot g R RB uA uB φ ax i)) =
      min (arcPt c rot g R RB uA uB φ ax i) (g.accT + g.linT) := fun i hi => by
    unfold Gen.sendTime
    rw [hz.kA]
    have := travel_warp_min (k := 2 * g.accT) (by linarith) hA.le hl (.inl rfl) (htm.nonneg ax i hi)
    rw [e1] at this
    exact this
  have nn : ∀ i < g.totals ax,
      0 ≤ (Gen.circular g).sendTime c (arcPt c rot g R RB uA uB φ ax i) := fun i hi =>
    warp_nonneg hb.k hb.acc hl (htm.nonneg ax i hi)
  have tt : ∀ i < g.totals ax,
      (Gen.circular g).sendTime c (arcPt c rot g R RB uA uB φ ax i) ≤ 2 * g.accT + g.linT :=
    fun i hi => warp_le_total hb.k hb.acc hl (htm.nonneg ax i hi)
  refine ⟨fun i hi => ?_, fun hlt => ?_⟩
  · rw [← inv i (by omega)]
    exact travel_mono (by linarith) hA.le hl (nn i (by omega)) (m1 i hi) hT
  · refine le_trans ?_ (min_le_left _ (g.accT + g.linT))
    rw [← inv _ hlt]
    exact travel_mono (by linarith) hA.le hl h0 (m2 hlt) (tt _ hlt)

/-- The end of the way in uniform time. -/
theorem HelixTimes.way_cases (t : ℝ) :
    (travel (2 * g.accT) g.accT g.linT t < L / helixSpeed g V ∧ helixWay g V L t / L =
      travel (2 * g.accT) g.accT g.linT t * helixSpeed g V / L) ∨
    (L / helixSpeed g V ≤ travel (2 * g.accT) g.accT g.linT t ∧ helixWay g V L t / L = 1) := by
  have hW := hz.speed_pos hx
  have hL := hx.L0
  unfold helixWay
  rcases lt_or_ge (travel (2 * g.accT) g.accT g.linT t) (L / helixSpeed g V) with h | h
  · refine .inl ⟨h, ?_⟩
    rw [lt_div_iff₀ hW] at h
    rw [min_eq_left (by linarith), mul_comm]
  · refine .inr ⟨h, ?_⟩
    rw [div_le_iff₀ hW] at h
    rw [min_eq_right (by linarith), div_self hL.ne']

/-- An axis beside the plane at a moment. -/
theorem HelixTimes.other_at (hf3 : g.it3 = |delta.get (axis3 plane)| * c.ppm.get (axis3 plane))
    (hfE : g.itE = |delta.e| * c.ppm.get .e) (hp1000 : ∀ ax, c.ppm.get ax ≤ 1000)
    {evs : List (Event ℝ)} (he : Emits c (.circular g) evs) {n : ℕ} {t : ℝ} (h0 : 0 ≤ t)
    (hT : t ≤ (Gen.circular g).totalTime) (ha : AtTime evs t n) {ax : Axis}
    (hax : ax = axis3 plane ∨ ax = .e) :
    |(steps ax (evs.take n) : ℝ) - helixWay g V L t / L * (|delta.get ax| * c.ppm.get ax)| ≤ 13 / 10 := by
  have hpl := ht.plane_eq
  have hL := hx.L0
  have hW := hz.speed_pos hx
  have hA := hz.acc_pos hx
  obtain ⟨-, sh3, shE⟩ := hz.shares hx
  obtain ⟨u, hu, hlow, hsh, htot, hpt⟩ : ∃ u, |u - |delta.get ax| / L * s| ≤ 1 / 10 ^ 10 ∧
      (delta.get ax ≠ 0 → 1 / 15000000 ≤ |delta.get ax| / L) ∧ |delta.get ax| / L ≤ 1 ∧
      g.totals ax = ⌈|delta.get ax| * c.ppm.get ax⌉₊ ∧
      ∀ i, arcPt c rot g R RB uA uB φ ax i = (i : ℝ) / c.ppm.get ax / u := by
    rcases hax with rfl | rfl
    · refine ⟨g.vel3, hx.vel3, hx.low3, sh3, ?_, fun i => ?_⟩
      · simp [CircGen.totals, hpl, axis3_ne_a, axis3_ne_b, hf3]
      · simp [arcPt, hpl, axis3_ne_a, axis3_ne_b]
    · refine ⟨g.velE, hx.velE, hx.lowE, shE, ?_, fun i => ?_⟩
      · simp [CircGen.totals, axisE_ne_a, axisE_ne_b, axisE_ne_3, hfE]; rfl
      · simp [arcPt, axisE_ne_a, axisE_ne_b, axisE_ne_3]
  have hp : (0 : ℝ) < c.ppm.get ax := by exact_mod_cast hb.ppm ax
  have hp2 : (c.ppm.get ax : ℝ) ≤ 1000 := by exact_mod_cast hp1000 ax
  have hle : steps ax (evs.take n) ≤ g.totals ax := by
    rw [← emits_take he n]; exact (circ_steps c g n ax).1
  obtain ⟨s1, s2⟩ := hz.sides hx ht hb hl he h0 hT ha ax
  have hfit := hz.fits hx
  have hcase := hz.way_cases hx ht hb hl t
  have htr := travel_nonneg (k := 2 * g.accT) (by linarith) hA.le hl h0 (by rwa [hz.total hx] at hT)
  have htime := hz.time_le hx
  set τ := travel (2 * g.accT) g.accT g.linT t with hτ
  set k := steps ax (evs.take n) with hk
  set d := |delta.get ax| with hd
  set q := helixWay g V L t / L with hq
  have hd0 : 0 ≤ d := abs_nonneg _
  have hdp : 0 ≤ d * c.ppm.get ax := by positivity
  have hup : (g.totals ax : ℝ) < d * c.ppm.get ax + 1 := by rw [htot]; exact Nat.ceil_lt_add_one hdp
  have hlo : d * c.ppm.get ax ≤ g.totals ax := by rw [htot]; exact Nat.le_ceil _
  have hkle : (k : ℝ) ≤ g.totals ax := by exact_mod_cast hle
  -- the axis does not move
  by_cases hz0 : delta.get ax = 0
  · have hd' : d = 0 := by rw [hd, hz0, abs_zero]
    have ht0 : g.totals ax = 0 := by rw [htot, hd']; simp
    rw [hd', zero_mul, mul_zero, sub_zero, show k = 0 by omega]
    norm_num
  obtain ⟨u0, -⟩ := helix_time hL hx.s_ge (hlow hz0) hu
  have hshare := hz.share hx (by positivity) hsh hu
  -- the error of the speed
  have err : ∀ y, 0 ≤ y → y ≤ L / helixSpeed g V →
      |y * u * c.ppm.get ax - y * helixSpeed g V / L * (d * c.ppm.get ax)| ≤ 3 / 10 := by
    intro y hy0 hy
    rw [show y * u * c.ppm.get ax - y * helixSpeed g V / L * (d * c.ppm.get ax) =
      y * (u - d / L * helixSpeed g V) * c.ppm.get ax by field_simp, abs_mul, abs_mul, abs_of_nonneg hy0,
      abs_of_pos hp]
    calc y * |u - d / L * helixSpeed g V| * c.ppm.get ax ≤ 900001 * (3 / 10 ^ 10) * 1000 := by
          gcongr
          linarith
      _ ≤ 3 / 10 := by norm_num
  have hnext : k < g.totals ax → τ * u * c.ppm.get ax ≤ k := fun hlt => by
    have := s2 hlt
    rw [hpt, div_div, le_div_iff₀ (by positivity)] at this
    linarith
  rw [abs_le]
  rcases hcase with ⟨h1, h2⟩ | ⟨h1, h2⟩
  · rw [h2]
    have e1 := abs_le.1 (err τ htr h1.le)
    constructor
    · rcases hle.lt_or_eq with hlt | heq
      · have := hnext hlt
        linarith [e1.1]
      · have : τ * helixSpeed g V / L ≤ 1 := by
          rw [div_le_one hL]
          rw [lt_div_iff₀ hW] at h1
          exact h1.le
        have h3 : τ * helixSpeed g V / L * (d * c.ppm.get ax) ≤ 1 * (d * c.ppm.get ax) := by gcongr
        rw [heq]
        linarith
    · rcases Nat.eq_zero_or_pos k with hk0 | hk0
      · rw [hk0]
        have : 0 ≤ τ * helixSpeed g V / L * (d * c.ppm.get ax) := by positivity
        simp only [Nat.cast_zero]
        linarith
      · have h3 := s1 (k - 1) (by omega)
        have h4 : arcPt c rot g R RB uA uB φ ax (k - 1) ≤ τ := by
          rcases min_le_iff.1 h3 with h | h
          · exact h
          · linarith
        rw [hpt, div_div, div_le_iff₀ (by positivity), Nat.cast_sub hk0, Nat.cast_one] at h4
        linarith [e1.2]
  · rw [h2, one_mul]
    constructor
    · rcases hle.lt_or_eq with hlt | heq
      · have h3 := hnext hlt
        have e1 := abs_le.1 (err (L / helixSpeed g V) (by positivity) le_rfl)
        have h4 : L / helixSpeed g V * u * c.ppm.get ax ≤ τ * u * c.ppm.get ax := by gcongr
        have e2 : L / helixSpeed g V * helixSpeed g V / L * (d * c.ppm.get ax) = d * c.ppm.get ax := by
          field_simp
        rw [e2] at e1
        linarith [e1.1]
      · rw [heq]; linarith
    · linarith

/-- The same with the sign of the distance. -/
theorem HelixTimes.net_at {φs φe : ℝ} (hf : NewFacts c delta radius plane rot g φs φe)
    (hp1000 : ∀ ax, c.ppm.get ax ≤ 1000) {evs : List (Event ℝ)} (he : Emits c (.circular g) evs) {n : ℕ}
    {t : ℝ} (h0 : 0 ≤ t) (hT : t ≤ (Gen.circular g).totalTime) (ha : AtTime evs t n) {ax : Axis}
    (hax : ax = axis3 plane ∨ ax = .e) :
    |(netSteps c ax (evs.take n) : ℝ) - helixWay g V L t / L * (delta.get ax * c.ppm.get ax)| ≤ 13 / 10 := by
  have hf3 : g.it3 = |delta.get (axis3 plane)| * c.ppm.get (axis3 plane) := by
    rw [hf.it3, planeAxes_eq, planeAxes_eq]; simp
  have hfE : g.itE = |delta.e| * c.ppm.get .e := by
    rw [hf.itE]; simp [V4.get]
  have key := hz.other_at hx ht hb hl hf3 hfE hp1000 he h0 hT ha hax
  have hnet : netSteps c ax (evs.take n) =
      (if delta.get ax < 0 then -1 else 1) * (steps ax (evs.take n) : ℤ) := by
    have h3 := circ_run_3 c g n
    have hE := circ_run_e c g n
    rw [hf.plane_eq] at h3
    rw [← emits_take he n]
    rcases hax with rfl | rfl
    · rw [h3, hf.dir3, planeAxes_eq, sign1_eq]
    · rw [hE, hf.dirE, sign1_eq]; rfl
  rw [hnet]
  by_cases hneg : delta.get ax < 0
  · rw [if_pos hneg]
    rw [abs_of_neg hneg] at key
    push_cast
    rw [← abs_neg]
    refine le_trans (le_of_eq ?_) key
    congr 1; ring
  · rw [if_neg hneg]
    rw [abs_of_nonneg (not_lt.1 hneg)] at key
    push_cast
    rwa [one_mul]

/-- The angle for an axis of the plane: its pulses before and after a moment lie around it, and it is
near the part of the whole turn. -/
theorem HelixTimes.angle_at {evs : List (Event ℝ)} (he : Emits c (.circular g) evs) {n : ℕ} {t : ℝ}
    (h0 : 0 ≤ t) (hT : t ≤ (Gen.circular g).totalTime) (ha : AtTime evs t n) {ax : Axis}
    (hend : ∀ i < g.totals ax, arcPt c rot g R RB uA uB φ ax i ≤ g.rDivV * g.deltaAngle) :
    ∃ θ, 0 ≤ θ ∧ θ ≤ g.deltaAngle ∧
      (∀ i < steps ax (evs.take n), arcPt c rot g R RB uA uB φ ax i ≤ g.rDivV * θ) ∧
      (steps ax (evs.take n) < g.totals ax →
        g.rDivV * θ ≤ arcPt c rot g R RB uA uB φ ax (steps ax (evs.take n))) ∧
      |θ - helixWay g V L t / L * g.deltaAngle| ≤ 28 / 100000 / ρ := by
  have hL := hx.L0
  have hW := hz.speed_pos hx
  have hA := hz.acc_pos hx
  have hV := hx.V0
  have hρ := hx.ρ0
  have hT0 := hx.T0
  have hr : 0 < g.rDivV := by rw [hx.rdv]; positivity
  have htm := arc_timed ht hb hl
  obtain ⟨sh, -, -⟩ := hz.shares hx
  have hshare := hz.share hx (by positivity) sh hx.arc
  have hle : steps ax (evs.take n) ≤ g.totals ax := by
    rw [← emits_take he n]; exact (circ_steps c g n ax).1
  obtain ⟨s1, s2⟩ := hz.sides hx ht hb hl he h0 hT ha ax
  have hfit := hz.fits hx
  have hcase := hz.way_cases hx ht hb hl t
  have htr := travel_nonneg (k := 2 * g.accT) (by linarith) hA.le hl h0 (by rwa [hz.total hx] at hT)
  have htime := hz.time_le hx
  set τ := travel (2 * g.accT) g.accT g.linT t with hτ
  set k := steps ax (evs.take n) with hk
  set q := helixWay g V L t / L with hq
  -- the angle at a uniform time
  have err : ∀ y, 0 ≤ y → y ≤ L / helixSpeed g V →
      |y / g.rDivV - y * helixSpeed g V / L * g.deltaAngle| ≤ 28 / 100000 / ρ := by
    intro y hy0 hy
    rw [hx.rdv, show y / (ρ / V) - y * helixSpeed g V / L * g.deltaAngle =
      y / ρ * (V - g.deltaAngle * ρ / L * helixSpeed g V) by field_simp, abs_mul, abs_of_nonneg (by positivity)]
    calc y / ρ * |V - g.deltaAngle * ρ / L * helixSpeed g V| ≤ 900001 / ρ * (3 / 10 ^ 10) := by
          gcongr
          linarith
      _ ≤ 28 / 100000 / ρ := by
          rw [div_mul_eq_mul_div]
          gcongr
          norm_num
  have mul : ∀ y, g.rDivV * min (y / g.rDivV) g.deltaAngle = min y (g.rDivV * g.deltaAngle) := fun y => by
    rw [mul_min_of_nonneg _ _ hr.le, mul_div_cancel₀ _ hr.ne']
  rcases hcase with ⟨h1, h2⟩ | ⟨h1, h2⟩
  · refine ⟨min (τ / g.rDivV) g.deltaAngle, le_min (by positivity) hT0.le, min_le_right _ _,
      fun i hi => ?_, fun hlt => ?_, ?_⟩
    · rw [mul]
      refine le_min ?_ (hend i (by omega))
      rcases min_le_iff.1 (s1 i hi) with h | h
      · exact h
      · linarith
    · rw [mul]
      exact (min_le_left _ _).trans (s2 hlt)
    · rw [h2]
      have h3 : τ * helixSpeed g V / L ≤ 1 := by
        rw [div_le_one hL]
        rw [lt_div_iff₀ hW] at h1
        exact h1.le
      have h4 : τ * helixSpeed g V / L * g.deltaAngle = min (τ * helixSpeed g V / L * g.deltaAngle)
          g.deltaAngle := by
        rw [min_eq_left]
        calc _ ≤ 1 * g.deltaAngle := by gcongr
          _ = _ := one_mul _
      rw [h4]
      refine (abs_min_sub_min_le_max _ _ _ _).trans ?_
      rw [sub_self, abs_zero, max_eq_left (abs_nonneg _)]
      exact err τ htr h1.le
  · -- the last pulse sent may be later
    set K := if k = 0 then 0 else arcPt c rot g R RB uA uB φ ax (k - 1) with hK
    have hKn : ∀ i < k, arcPt c rot g R RB uA uB φ ax i ≤ K := fun i hi => by
      rw [hK, if_neg (by omega)]
      exact htm.mono ax _ _ (by omega) (by omega)
    have hKp : k < g.totals ax → K ≤ arcPt c rot g R RB uA uB φ ax k := fun hlt => by
      rw [hK]
      split
      · exact htm.nonneg ax k hlt
      · exact htm.mono ax _ _ (by omega) hlt
    refine ⟨min (max τ K / g.rDivV) g.deltaAngle, le_min (div_nonneg (htr.trans (le_max_left _ _)) hr.le)
      hT0.le, min_le_right _ _, fun i hi => ?_, fun hlt => ?_, ?_⟩
    · rw [mul]
      exact le_min ((hKn i hi).trans (le_max_right _ _)) (hend i (by omega))
    · rw [mul]
      exact (min_le_left _ _).trans (max_le (s2 hlt) (hKp hlt))
    · rw [h2, one_mul, abs_sub_comm, abs_of_nonneg (by linarith [min_le_right (max τ K / g.rDivV) g.deltaAngle])]
      have e1 := err (L / helixSpeed g V) (by positivity) le_rfl
      have e2 : L / helixSpeed g V * helixSpeed g V / L * g.deltaAngle = g.deltaAngle := by field_simp
      rw [e2] at e1
      have e3 := (abs_le.1 e1).1
      have e4 : L / helixSpeed g V / g.rDivV ≤ max τ K / g.rDivV := by
        gcongr
        exact h1.trans (le_max_left _ _)
      have hpos : 0 ≤ 28 / 100000 / ρ := by positivity
      rcases min_cases (max τ K / g.rDivV) g.deltaAngle with ⟨h, -⟩ | ⟨h, -⟩ <;> rw [h] <;> linarith

/-- The axes of the plane at a moment. -/
theorem HelixTimes.plane_at (hp1000 : ∀ ax, c.ppm.get ax ≤ 1000) {evs : List (Event ℝ)}
    (he : Emits c (.circular g) evs) {n : ℕ} {t : ℝ}
    (h0 : 0 ≤ t) (hT : t ≤ (Gen.circular g).totalTime) (ha : AtTime evs t n) :
    |startA plane radius * c.ppm.get (axisA plane) + netSteps c (axisA plane) (evs.take n) -
      turnedA plane radius rot (helixWay g V L t / L * g.deltaAngle) * c.ppm.get (axisA plane)| ≤ 5 / 2 ∧
    |startB plane radius * c.ppm.get (axisB plane) + netSteps c (axisB plane) (evs.take n) -
      turnedB plane radius rot (helixWay g V L t / L * g.deltaAngle) * c.ppm.get (axisB plane)| ≤ 5 / 2 := by
  have hρ := hx.ρ0
  have hr : 0 < g.rDivV := by rw [hx.rdv]; have := hx.V0; positivity
  have hpl := ht.plane_eq
  have hppm : ∀ ax, (0 : ℝ) < c.ppm.get ax := fun ax => by exact_mod_cast hb.ppm ax
  have hppm2 : ∀ ax, (c.ppm.get ax : ℝ) ≤ 1000 := fun ax => by exact_mod_cast hp1000 ax
  obtain ⟨θ, a1, a2, a3, a4, a5⟩ := hz.angle_at hx ht hb hl he h0 hT ha (ax := axisA plane) fun i hi => by
    rw [arcPt, if_pos (by rw [hpl])]
    refine mul_le_mul_of_nonneg_left (ht.ta.turn_le ?_) hr.le
    simpa [CircGen.totals, hpl] using hi
  obtain ⟨θ', b1, b2, b3, b4, b5⟩ := hz.angle_at hx ht hb hl he h0 hT ha (ax := axisB plane) fun i hi => by
    rw [arcPt, if_neg (by rw [hpl]; exact axisB_ne _), if_pos (by rw [hpl])]
    refine mul_le_mul_of_nonneg_left (ht.tb.turn_le ?_) hr.le
    simpa [CircGen.totals, hpl, axisB_ne] using hi
  rw [← emits_take he n] at a3 a4 b3 b4
  have dA := ht.dev_a hr a1 a2 a3 a4
  have dB := ht.dev_b hr b1 b2 b3 b4
  rw [emits_take he n] at dA dB
  set q := helixWay g V L t / L * g.deltaAngle with hq
  have zA : |(A : ℝ) + (R * sin (φ + rotSign rot * θ') - A) - R * sin (φ + rotSign rot * θ')| ≤ 3 / 2 := by
    rw [show (A : ℝ) + (R * sin (φ + rotSign rot * θ') - A) - R * sin (φ + rotSign rot * θ') = 0 by ring,
      abs_zero]; norm_num
  have zB : |(B : ℝ) + (RB * cos (φ + rotSign rot * θ) - B) - RB * cos (φ + rotSign rot * θ)| ≤ 3 / 2 := by
    rw [show (B : ℝ) + (RB * cos (φ + rotSign rot * θ) - B) - RB * cos (φ + rotSign rot * θ) = 0 by ring,
      abs_zero]; norm_num
  have nA := (ht.near dA zB).1
  have nB := (ht.near zA dB).2
  have lA := (ht.turned_lip θ q).1
  have lB := (ht.turned_lip θ' q).2
  have small : ∀ x : ℝ, |x - q| ≤ 28 / 100000 / ρ → startDist plane radius * |x - q| ≤ 42 / 100000 := by
    intro x hxq
    calc _ ≤ (3 / 2 * ρ) * (28 / 100000 / ρ) := by
          have := hx.near
          have : 0 ≤ startDist plane radius := Real.sqrt_nonneg _
          gcongr
      _ = 42 / 100000 := by field_simp; norm_num
  have fin : ∀ {p x y z : ℝ}, 0 < p → p ≤ 1000 → |x - y * p| ≤ 2 → |y - z| ≤ 42 / 100000 →
      |x - z * p| ≤ 5 / 2 := by
    intro p x y z hp hp1 h1 h2
    rw [show x - z * p = (x - y * p) + (y - z) * p by ring]
    refine (abs_add_le _ _).trans ?_
    rw [abs_mul, abs_of_pos hp]
    have : |y - z| * p ≤ 42 / 100000 * 1000 := by gcongr
    linarith
  exact ⟨fin (hppm _) (hppm2 _) nA (lA.trans (small _ a5)), fin (hppm _) (hppm2 _) nB (lB.trans (small _ b5))⟩

end

end PyCNC
