import Verif.Lemmas.HalMove
import Verif.Lemmas.LinearWitness
import Verif.Lemmas.Gaps

/-!
# How late the pulses of a move start
-/

set_option linter.unusedSectionVars false

namespace PyCNC

open Spec

/-! ## Lags -/

/-- A lag never shrinks. -/
theorem lags_ge {len : Int} : ∀ {ks : List Int} {t l : Int}, ∀ x ∈ lags len t l ks, l ≤ x
  | [], _, _, x, hx => by cases hx
  | k :: ks, t, l, x, hx => by
    rcases List.mem_cons.1 hx with rfl | hx
    · omega
    · have := lags_ge x hx
      omega

theorem lags_mono {len : Int} : ∀ (ks : List Int) (t l : Int), (lags len t l ks).Pairwise (· ≤ ·)
  | [], _, _ => List.Pairwise.nil
  | k :: ks, t, l => List.Pairwise.cons (fun x hx => lags_ge x hx) (lags_mono ks _ _)

theorem starts_ge {len : Int} (hl : 0 ≤ len) : ∀ {ks : List Int} {t l : Int},
    ∀ x ∈ List.zipWith (· + ·) ks (lags len t l ks), t + l ≤ x
  | [], _, _, x, hx => by simp [lags] at hx
  | k :: ks, t, l, x, hx => by
    rw [lags, List.zipWith_cons_cons] at hx
    rcases List.mem_cons.1 hx with rfl | hx
    · omega
    · have := starts_ge hl x hx
      omega

/-- Pulses do not overlap. -/
theorem starts_apart {len : Int} (hl : 0 ≤ len) : ∀ (ks : List Int) (t l : Int),
    (List.zipWith (· + ·) ks (lags len t l ks)).Pairwise fun a b => a + len ≤ b
  | [], _, _ => by simp [lags]
  | k :: ks, t, l => by
    rw [lags, List.zipWith_cons_cons]
    refine List.Pairwise.cons (fun x hx => ?_) (starts_apart hl ks _ _)
    have := starts_ge hl x hx
    omega

theorem lags_bound {len : Int} (hl : 0 ≤ len) : ∀ {ks : List Int} {t l : Int}, ks.Pairwise (· ≤ ·) →
    (∀ k ∈ ks, t - len ≤ k) → ∀ {i : ℕ} {x : Int}, (lags len t l ks)[i]? = some x →
    x ≤ l + len * (i + 1)
  | [], _, _, _, _, i, x, hx => by simp [lags] at hx
  | k :: ks, t, l, hs, ht, 0, x, hx => by
    have := ht k (List.mem_cons_self ..)
    simp only [lags, List.getElem?_cons_zero, Option.some.injEq] at hx
    subst hx
    push_cast
    omega
  | k :: ks, t, l, hs, ht, i + 1, x, hx => by
    have h1 := ht k (List.mem_cons_self ..)
    obtain ⟨h2, h3⟩ := List.pairwise_cons.1 hs
    simp only [lags, List.getElem?_cons_succ] at hx
    have := lags_bound hl h3 (fun k' hk' => by have := h2 k' hk'; omega) hx
    have e : len * ((i + 1 : ℕ) + 1) = len * (i + 1) + len := by push_cast; ring
    rw [e]
    omega

/-- Each pulse before adds at most the length of a pulse. -/
theorem lags_le {len : Int} (hl : 0 ≤ len) {ks : List Int} (h0 : ∀ k ∈ ks, 0 ≤ k)
    (hs : ks.Pairwise (· ≤ ·)) {i : ℕ} {x : Int} (hx : (lags len 0 0 ks)[i]? = some x) :
    x ≤ len * i := by
  cases ks with
  | nil => simp [lags] at hx
  | cons k ks =>
    have h1 := h0 k (List.mem_cons_self ..)
    have e : (0 : Int) + max 0 (0 - k) = 0 := by omega
    rw [lags, e] at hx
    cases i with
    | zero =>
      simp only [List.getElem?_cons_zero, Option.some.injEq] at hx
      subst hx
      simp
    | succ i =>
      obtain ⟨h2, h3⟩ := List.pairwise_cons.1 hs
      have := lags_bound hl h3 (fun k' hk' => by have := h2 k' hk'; omega)
        (by simpa using hx : (lags len (k + len) 0 ks)[i]? = some x)
      push_cast
      linarith

/-! ## The planned times -/

section
variable [PyRound]

/-- A time in whole microseconds. -/
noncomputable def stamp (τ : ℝ) : Int := PyRound.rnd (τ * 1000000)

theorem stamp_mono {τ σ : ℝ} (h : τ ≤ σ) : stamp τ ≤ stamp σ := by
  unfold stamp
  exact rnd_mono (by linarith)

theorem stamps_times {evs : List (Event ℝ)} {ks : List Int} (h : Stamps evs ks) :
    ∃ τs : List ℝ, ks = τs.map stamp ∧
      ((∀ ev ∈ evs, ∀ τ, StepsAt τ ev → τ ∈ τs) ∧ (∀ τ ∈ τs, ∃ ev ∈ evs, StepsAt τ ev)) ∧
      ((evs.Pairwise fun e₁ e₂ => ∀ τ₁ τ₂, StepsAt τ₁ e₁ → StepsAt τ₂ e₂ → τ₁ ≤ τ₂) →
        τs.Pairwise (· ≤ ·)) := by
  induction h with
  | nil => exact ⟨[], rfl, ⟨by simp, by simp⟩, fun _ => List.Pairwise.nil⟩
  | dir _ ih =>
    obtain ⟨τs, h1, ⟨h2, h3⟩, h4⟩ := ih
    refine ⟨τs, h1, ⟨fun ev hev τ hτ => ?_, fun τ hτ => ?_⟩, fun hp => h4 (List.pairwise_cons.1 hp).2⟩
    · rcases List.mem_cons.1 hev with rfl | hev
      · exact hτ.elim
      · exact h2 ev hev τ hτ
    · obtain ⟨ev, a, b⟩ := h3 τ hτ
      exact ⟨ev, List.mem_cons_of_mem _ a, b⟩
  | @pulse x τ evs ks hx _ ih =>
    obtain ⟨τs, h1, ⟨h2, h3⟩, h4⟩ := ih
    refine ⟨τ :: τs, ?_, ⟨fun ev hev σ hσ => ?_, fun σ hσ => ?_⟩, fun hp => ?_⟩
    · rw [h1, List.map_cons]
      congr 1
    · rcases List.mem_cons.1 hev with rfl | hev
      · obtain ⟨ax, hax⟩ := hσ.1
        rw [hx.2 ax σ hax]
        exact List.mem_cons_self ..
      · exact List.mem_cons_of_mem _ (h2 ev hev σ hσ)
    · rcases List.mem_cons.1 hσ with rfl | hσ
      · exact ⟨_, List.mem_cons_self .., hx⟩
      · obtain ⟨ev, a, b⟩ := h3 σ hσ
        exact ⟨ev, List.mem_cons_of_mem _ a, b⟩
    · obtain ⟨p1, p2⟩ := List.pairwise_cons.1 hp
      refine List.Pairwise.cons (fun σ hσ => ?_) (h4 p2)
      obtain ⟨ev, a, b⟩ := h3 σ hσ
      exact p1 ev a τ σ hx b

theorem stepTimes_event {ax : Axis} {τ : ℝ} : ∀ {evs : List (Event ℝ)},
    τ ∈ stepTimes ax evs → ∃ t : V4 (Option ℝ), .pulse t ∈ evs ∧ t.get ax = some τ
  | [], h => by cases h
  | .dir _ :: r, h => by
    obtain ⟨t, a, b⟩ := stepTimes_event (evs := r) h
    exact ⟨t, List.mem_cons_of_mem _ a, b⟩
  | .pulse t :: r, h => by
    simp only [stepTimes] at h
    cases ht : t.get ax with
    | none =>
      rw [ht] at h
      obtain ⟨t, a, b⟩ := stepTimes_event (evs := r) h
      exact ⟨t, List.mem_cons_of_mem _ a, b⟩
    | some σ =>
      rw [ht] at h
      rcases List.mem_cons.1 h with rfl | h
      · exact ⟨t, List.mem_cons_self .., ht⟩
      · obtain ⟨t, a, b⟩ := stepTimes_event (evs := r) h
        exact ⟨t, List.mem_cons_of_mem _ a, b⟩

theorem event_stepTimes {ax : Axis} {τ : ℝ} {t : V4 (Option ℝ)} : ∀ {evs : List (Event ℝ)},
    .pulse t ∈ evs → t.get ax = some τ → τ ∈ stepTimes ax evs
  | [], h, _ => by cases h
  | .dir _ :: r, h, ht => by
    rcases List.mem_cons.1 h with h | h
    · cases h
    · exact event_stepTimes (evs := r) h ht
  | .pulse t' :: r, h, ht => by
    simp only [stepTimes]
    rcases List.mem_cons.1 h with h | h
    · cases h
      rw [ht]
      exact List.mem_cons_self ..
    · have := event_stepTimes (evs := r) h ht
      cases t'.get ax with
      | none => exact this
      | some σ => exact List.mem_cons_of_mem _ this

/-- If only one motor moves, the planned times are its times. -/
theorem stamps_single {ax : Axis} {evs : List (Event ℝ)} {ks : List Int} (h : Stamps evs ks)
    (hs : ∀ ax', ax' ≠ ax → stepTimes ax' evs = []) : ks = (stepTimes ax evs).map stamp := by
  induction h with
  | nil => rfl
  | dir _ ih => exact ih hs
  | @pulse x τ evs ks hx _ ih =>
    have hn : ∀ ax', ax' ≠ ax → x.get ax' = none ∧ stepTimes ax' evs = [] := fun ax' hne => by
      have := hs ax' hne
      simp only [stepTimes] at this
      cases h : x.get ax' with
      | none => rw [h] at this; exact ⟨rfl, this⟩
      | some σ => rw [h] at this; cases this
    have hax : x.get ax = some τ := by
      obtain ⟨ax', h'⟩ := hx.1
      by_cases e : ax' = ax
      · rw [← e]; exact h'
      · rw [(hn ax' e).1] at h'; cases h'
    rw [ih fun ax' hne => (hn ax' hne).2]
    simp [stepTimes, hax, stamp]

/-- Times that are far enough apart. -/
theorem spaced_map {len : ℕ} : ∀ {τs : List ℝ} {t : Int}, (∀ τ ∈ τs, t ≤ stamp τ) →
    (τs.Pairwise fun τ σ => ((len : ℝ) + 1) / 1000000 ≤ σ - τ) → Spaced len t (τs.map stamp)
  | [], _, _, _ => trivial
  | τ :: τs, t, h, hp => by
    obtain ⟨p1, p2⟩ := List.pairwise_cons.1 hp
    refine ⟨h τ (List.mem_cons_self ..), spaced_map (fun σ hσ => ?_) p2⟩
    have h1 := p1 σ hσ
    have h2 := PyRound.near (τ * 1000000)
    have h3 := PyRound.near (σ * 1000000)
    have h4 := (abs_le.1 h2).2
    have h5 := (abs_le.1 h3).1
    unfold stamp
    have h6 : ((PyRound.rnd (τ * 1000000) : ℝ) + len) ≤ PyRound.rnd (σ * 1000000) := by
      have : ((len : ℝ) + 1) ≤ (σ - τ) * 1000000 := by
        rw [div_le_iff₀ (by norm_num)] at h1; exact h1
      linarith
    exact_mod_cast h6

/-! ## A growing lag -/

/-- From one pulse to a later one the lag does not shrink; if they are planned nearer than the length of
a pulse, it grows. -/
theorem lag_grows {len : ℕ} {τs : List ℝ} (hs : τs.Pairwise (· ≤ ·)) {τ σ : ℝ} (hlt : τ < σ)
    (hσ : σ ∈ τs) {n : ℕ} {x : Int} (hn : τs[n]? = some τ)
    (hx : (lags len 0 0 (τs.map stamp))[n]? = some x) :
    ∃ (n' : ℕ) (x' : Int), τs[n']? = some σ ∧ (lags len 0 0 (τs.map stamp))[n']? = some x' ∧ x ≤ x' ∧
      x + len + stamp τ ≤ x' + stamp σ := by
  obtain ⟨n', hn'⟩ := List.getElem?_of_mem hσ
  obtain ⟨l1, e1⟩ := List.getElem?_eq_some_iff.1 hn
  obtain ⟨l2, e2⟩ := List.getElem?_eq_some_iff.1 hn'
  obtain ⟨l3, e3⟩ := List.getElem?_eq_some_iff.1 hx
  have hl : n < n' := by
    by_contra hcon
    rcases Nat.lt_or_ge n' n with h | h
    · have := List.pairwise_iff_getElem.1 hs n' n l2 l1 h
      rw [e1, e2] at this
      linarith
    · obtain rfl : n = n' := by omega
      rw [e1] at e2
      exact hlt.ne e2
  have l4 : n' < (lags len 0 0 (τs.map stamp)).length := by
    rw [lags_length, List.length_map]; exact l2
  refine ⟨n', _, hn', List.getElem?_eq_getElem l4, ?_, ?_⟩
  · have := List.pairwise_iff_getElem.1 (lags_mono (len := len) (τs.map stamp) 0 0) n n' l3 l4 hl
    rwa [e3] at this
  · have l5 : n < (List.zipWith (· + ·) (τs.map stamp) (lags len 0 0 (τs.map stamp))).length := by
      rw [List.length_zipWith, lags_length, List.length_map]; omega
    have l6 : n' < (List.zipWith (· + ·) (τs.map stamp) (lags len 0 0 (τs.map stamp))).length := by
      rw [List.length_zipWith, lags_length, List.length_map]; omega
    have := List.pairwise_iff_getElem.1 (starts_apart (len := len) (by omega) (τs.map stamp) 0 0)
      n n' l5 l6 hl
    simp only [List.getElem_zipWith, List.getElem_map, e1, e2, e3] at this
    omega

/-! ## X40.6 Y40.59 at F3444.6 -/

/-- 40.6 mm in X, 40.59 mm in Y. -/
noncomputable def steep : V4 ℝ := ⟨406 / 10, 4059 / 100, 0, 0⟩

omit [PyRound] in
theorem steep_decimal : Decimal10 steep := by
  intro ax
  cases ax
  · exact ⟨406 * 10 ^ 9, by norm_num [steep, V4.get]⟩
  · exact ⟨4059 * 10 ^ 8, by norm_num [steep, V4.get]⟩
  · exact ⟨0, by norm_num [steep, V4.get]⟩
  · exact ⟨0, by norm_num [steep, V4.get]⟩

omit [PyRound] in
theorem steep_ordinary : OrdinaryMove steep (34446 / 10) := by
  refine ⟨steep_decimal, ⟨.x, by norm_num [steep, V4.get]⟩, fun ax => ?_, fun ax => ?_, by norm_num⟩ <;>
    cases ax <;> norm_num [steep, V4.get]

omit [PyRound] in
theorem norm_steep : norm4 steep = 5741 / 100 := by
  have : (5741 / 100 : ℝ) = √((5741 / 100) ^ 2) := by rw [Real.sqrt_sq]; norm_num
  rw [this]
  unfold norm4 steep
  norm_num

theorem steep_abs : Coord.abs steep = steep :=
  abs_id steep_decimal fun ax => by cases ax <;> norm_num [steep, V4.get]

theorem steep_new : ∃ g, LinearGen.new Cfg.default steep (34446 / 10) = .ok g ∧
    g.maxV = steep ∧ g.accT = 406 / 30000 ∧ (g.total.get .x).toNat = 4060 ∧
    (g.total.get .y).toNat = 4059 ∧ ∀ ax, ((g.total.get ax).toNat : ℝ) ≤ 4060 := by
  have hw : adjustVelocity Cfg.default (Coord.smul (Coord.abs steep)
      (34446 / 10 / 60 / norm4 (Coord.abs steep))) = .ok steep := by
    rw [steep_abs, norm_steep]
    have : Coord.smul steep (34446 / 10 / 60 / (5741 / 100)) = steep := by
      refine V4.ext_get fun ax => ?_
      rw [get_smul]
      norm_num only
      rw [mul_one, round10_grid (steep_decimal ax)]
    rw [this]
    refine adjustVelocity_id steep_decimal fun ax => ?_
    cases ax <;> norm_num [steep, V4.get, Cfg.default]
  obtain ⟨g, h1, ht, h⟩ := linear_new_explicit (default_sane true) steep_ordinary hw
  have hmax : Coord.findMax steep = 406 / 10 := by rw [findMax_eq]; norm_num [steep]
  have key : ∀ ax (n : ℤ), |steep.get ax| * ((Cfg.default.ppm.get ax : ℚ) : ℝ) = n →
      g.total.get ax = n := fun ax n h => by
    have := ht ax
    rw [this]
    exact (congrArg _ h).trans (rnd_int _)
  have hx := key .x 4060 (by norm_num [steep, Cfg.default, V4.get])
  have hy := key .y 4059 (by norm_num [steep, Cfg.default, V4.get])
  have hz := key .z 0 (by norm_num [steep, Cfg.default, V4.get])
  have he := key .e 0 (by norm_num [steep, Cfg.default, V4.get])
  refine ⟨g, h1, ?_⟩
  rcases h with h | h
  · refine ⟨h.maxV, ?_, by rw [hx]; rfl, by rw [hy]; rfl, fun ax => ?_⟩
    · rw [h.accT, hmax]; norm_num [Cfg.default]
    · cases ax
      · rw [hx]; norm_num
      · rw [hy]; norm_num
      · rw [hz]; norm_num
      · rw [he]; norm_num
  · have := h.cond
    rw [hmax, steep_abs, norm_steep] at this
    norm_num [Cfg.default] at this

/-- The times of the first pulses. -/
theorem steep_at {g : LinearGen ℝ} (h1 : g.maxV = steep) (h2 : g.accT = 406 / 30000) {i : ℕ}
    (hi : i ≤ 10) :
    g.at Cfg.default (g.pt Cfg.default .x i) = √((i : ℝ) / 150000) ∧
    g.at Cfg.default (g.pt Cfg.default .y i) = √((i : ℝ) * 4060 / (4059 * 150000)) := by
  have hk : (Gen.linear g).twoVmaxPerA Cfg.default = 812 / 30000 := by
    rw [twoVmaxPerA_eq, h1, findMax_eq]
    norm_num [steep, Cfg.default]
  have hi' : (i : ℝ) ≤ 10 := by exact_mod_cast hi
  have hi0 : (0 : ℝ) ≤ i := by positivity
  unfold LinearGen.at LinearGen.pt warp
  rw [hk, h1, h2]
  have ex : (i : ℝ) / ((Cfg.default.ppm.get .x : ℚ) : ℝ) / steep.get .x * (812 / 30000) = i / 150000 := by
    norm_num [Cfg.default, steep, V4.get]; ring
  have ey : (i : ℝ) / ((Cfg.default.ppm.get .y : ℚ) : ℝ) / steep.get .y * (812 / 30000) =
      i * 4060 / (4059 * 150000) := by
    norm_num [Cfg.default, steep, V4.get]; ring
  rw [ex, ey]
  constructor
  · rw [if_pos]
    rw [Real.sqrt_le_left (by norm_num), div_le_iff₀ (by norm_num)]
    norm_num; linarith
  · rw [if_pos]
    rw [Real.sqrt_le_left (by norm_num), div_le_iff₀ (by norm_num)]
    norm_num; linarith

omit [PyRound] in
theorem steep_near {i : ℕ} (h0 : 1 ≤ i) (hi : i ≤ 9) :
    √((i : ℝ) * 4060 / (4059 * 150000)) < √((i : ℝ) / 150000) + 1 / 1000000 := by
  have h1 : (1 : ℝ) ≤ i := by exact_mod_cast h0
  have h2 : (i : ℝ) ≤ 9 := by exact_mod_cast hi
  have hb : (i : ℝ) * (10 / 12177) ≤ √((i : ℝ) / 150000) := by
    refine Real.le_sqrt_of_sq_le ?_
    rw [le_div_iff₀ (by norm_num)]
    nlinarith
  have hsq := Real.sq_sqrt (show (0 : ℝ) ≤ (i : ℝ) / 150000 by positivity)
  rw [Real.sqrt_lt' (by positivity)]
  have : (√((i : ℝ) / 150000) + 1 / 1000000) ^ 2 =
      i / 150000 + 2 / 1000000 * √((i : ℝ) / 150000) + 1 / 1000000 ^ 2 := by
    rw [add_sq, hsq]; ring
  rw [this, div_lt_iff₀ (by norm_num)]
  linarith

theorem stamp_near {τ σ : ℝ} (h : σ < τ + 1 / 1000000) : stamp σ ≤ stamp τ + 1 := by
  unfold stamp
  have h2 := (abs_le.1 (PyRound.near (τ * 1000000))).1
  have h3 := (abs_le.1 (PyRound.near (σ * 1000000))).2
  have h4 : (PyRound.rnd (σ * 1000000) : ℝ) < PyRound.rnd (τ * 1000000) + 2 := by linarith
  have h5 : PyRound.rnd (σ * 1000000) < PyRound.rnd (τ * 1000000) + 2 := by exact_mod_cast h4
  omega

/-- The lag of the tenth pulse of the Y motor. -/
theorem steep_lag {τs : List ℝ} (hs : τs.Pairwise (· ≤ ·))
    (hx : ∀ i : ℕ, i ≤ 9 → √((i : ℝ) / 150000) ∈ τs)
    (hy : ∀ i : ℕ, i ≤ 9 → √((i : ℝ) * 4060 / (4059 * 150000)) ∈ τs) {m : ℕ} (hm : m ≤ 9) :
    ∃ (n : ℕ) (x : Int), τs[n]? = some √((m : ℝ) * 4060 / (4059 * 150000)) ∧
      (lags (2 : ℕ) 0 0 (τs.map stamp))[n]? = some x ∧ (m : Int) ≤ x := by
  induction m with
  | zero =>
    obtain ⟨n, hn⟩ := List.getElem?_of_mem (hy 0 (by omega))
    obtain ⟨l, -⟩ := List.getElem?_eq_some_iff.1 hn
    have l4 : n < (lags (2 : ℕ) 0 0 (τs.map stamp)).length := by
      rw [lags_length, List.length_map]; exact l
    refine ⟨n, _, hn, List.getElem?_eq_getElem l4, ?_⟩
    exact lags_nonneg le_rfl _ (List.getElem_mem l4)
  | succ m ih =>
    obtain ⟨n, x, hn, hl, hmx⟩ := ih (by omega)
    have hm' : (m : ℝ) ≤ 8 := by exact_mod_cast (show m ≤ 8 by omega)
    have o1 : √((m : ℝ) * 4060 / (4059 * 150000)) < √(((m + 1 : ℕ) : ℝ) / 150000) := by
      refine Real.sqrt_lt_sqrt (by positivity) ?_
      rw [div_lt_div_iff₀ (by norm_num) (by norm_num)]
      push_cast
      linarith
    obtain ⟨n1, x1, a1, a2, a3, -⟩ := lag_grows hs o1 (hx (m + 1) hm) hn hl
    have o2 : √(((m + 1 : ℕ) : ℝ) / 150000) < √(((m + 1 : ℕ) : ℝ) * 4060 / (4059 * 150000)) := by
      refine Real.sqrt_lt_sqrt (by positivity) ?_
      rw [div_lt_div_iff₀ (by norm_num) (by norm_num)]
      push_cast
      have : (0 : ℝ) ≤ m := by positivity
      linarith
    obtain ⟨n2, x2, b1, b2, -, b4⟩ := lag_grows hs o2 (hy (m + 1) hm) a1 a2
    have := stamp_near (steep_near (i := m + 1) (by omega) hm)
    refine ⟨n2, x2, b1, b2, ?_⟩
    push_cast at *
    omega

end

end PyCNC
