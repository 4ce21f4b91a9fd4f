import Verif.Lemmas.Rounding
import Verif.Spec.Heater
import Verif.Lemmas.Exact

/-!
# Lemmas about the PID controller
-/

set_option linter.unusedSectionVars false

namespace PyCNC

open Spec

section Any

variable {F : Type} [PyNum F]

theorem updates_append (s : Pid F) (us vs : List (F × F)) :
    s.updates (us ++ vs) =
      ((s.updates us).1 ++ ((s.updates us).2.updates vs).1, ((s.updates us).2.updates vs).2) := by
  induction us generalizing s with
  | nil => rfl
  | cons u us ih =>
    obtain ⟨v, t⟩ := u
    simp only [List.cons_append, Pid.updates, ih]

theorem updates_length (s : Pid F) (us : List (F × F)) : (s.updates us).1.length = us.length := by
  induction us generalizing s with
  | nil => rfl
  | cons u us ih => simp [Pid.updates, ih]

theorem history_append (s : Pid F) (us vs : List (F × F)) :
    history s (us ++ vs) = history s us ++ history (s.updates us).2 vs := by
  unfold history
  rw [updates_append, List.zip_append (updates_length s us).symm, List.map_append]

theorem history_snoc (s : Pid F) (us : List (F × F)) (v t : F) :
    history s (us ++ [(v, t)]) =
      history s us ++ [⟨v, t, ((s.updates us).2.update v t).1⟩] := by
  rw [history_append]; rfl

theorem updates_snoc (s : Pid F) (us : List (F × F)) (v t : F) :
    (s.updates (us ++ [(v, t)])).2 = ((s.updates us).2.update v t).2 := by
  rw [updates_append]; rfl

theorem updates_target (s : Pid F) (us : List (F × F)) : (s.updates us).2.target = s.target := by
  induction us generalizing s with
  | nil => rfl
  | cons u us ih =>
    obtain ⟨v, t⟩ := u
    simp only [Pid.updates, ih]
    rfl

theorem updates_windup (s : Pid F) (us : List (F × F)) : (s.updates us).2.windup = s.windup := by
  induction us generalizing s with
  | nil => rfl
  | cons u us ih =>
    obtain ⟨v, t⟩ := u
    simp only [Pid.updates, ih]
    rfl

/-- How an update changes `fixed` and the timer. -/
theorem update_fix (s : Pid F) (v t : F) :
    (s.fixed = true ∧ (s.update v t).2.fixed = true) ∨
    (s.fixed = false ∧ OnTarget s.target ⟨v, t, (s.update v t).1⟩ ∧
      ((s.timer = none ∧ (s.update v t).2.fixed = false ∧ (s.update v t).2.timer = some t) ∨
       ∃ t₀, s.timer = some t₀ ∧ (s.update v t).2.timer = some t₀ ∧
        (s.update v t).2.fixed = (PyNum.ofRat (5 / 2) <ₚ t -ₚ t₀))) ∨
    (s.fixed = false ∧ ¬ OnTarget s.target ⟨v, t, (s.update v t).1⟩ ∧
      (s.update v t).2.fixed = false ∧ (s.update v t).2.timer = none) := by
  have e1 : (fixAccuracy : F) = PyNum.ofRat (1 / 100) := by unfold fixAccuracy; norm_num
  have e2 : (fixTime : F) = PyNum.ofRat (5 / 2) := by unfold fixTime; norm_num
  have hf : (s.update v t).2.fixed = (s.fix (s.target -ₚ v) (s.update v t).1 t).1 := rfl
  have ht : (s.update v t).2.timer = (s.fix (s.target -ₚ v) (s.update v t).1 t).2 := rfl
  rw [hf, ht]
  unfold Pid.fix OnTarget
  rw [e1, e2]
  cases h1 : s.fixed
  · right
    simp only [Bool.false_eq_true, if_false, true_and]
    by_cases h2 : (PyNum.abs (s.target -ₚ v) <ₚ s.target *ₚ PyNum.ofRat (1 / 100) &&
        (s.update v t).1 <ₚ PyNum.ofRat 1) = true
    · left
      simp only [if_pos h2]
      refine ⟨by simpa using h2, ?_⟩
      cases h3 : s.timer with
      | none => left; simp
      | some t₀ => right; exact ⟨t₀, rfl, rfl, by simp⟩
    · right
      simp only [if_neg h2]
      exact ⟨by simpa using h2, trivial, trivial⟩
  · left; simp

theorem fixed_stays (s : Pid F) (us : List (F × F)) (h : s.fixed = true) :
    (s.updates us).2.fixed = true := by
  induction us generalizing s with
  | nil => exact h
  | cons u us ih =>
    obtain ⟨v, t⟩ := u
    refine ih _ ?_
    rcases update_fix s v t with h1 | h1 | h1
    · exact h1.2
    · rw [h] at h1; exact absurd h1.1 (by simp)
    · rw [h] at h1; exact absurd h1.1 (by simp)

/-- What the timer says about the history. -/
theorem fixed_inv (s : Pid F) (hf : s.fixed = false) (ht : s.timer = none) (us : List (F × F)) :
    ((s.updates us).2.fixed = true → HeldTarget s.target (history s us)) ∧
    ((s.updates us).2.fixed = false → ∀ t₀, (s.updates us).2.timer = some t₀ →
      ∃ pre mid first, history s us = pre ++ mid ∧ (∀ u ∈ mid, OnTarget s.target u) ∧
        mid.head? = some first ∧ first.time = t₀) := by
  induction us using List.reverseRecOn with
  | nil =>
    refine ⟨fun h => ?_, fun _ t₀ h => ?_⟩
    · change s.fixed = true at h
      rw [hf] at h; cases h
    · change s.timer = some t₀ at h
      rw [ht] at h; cases h
  | append_singleton us u ih =>
    obtain ⟨v, t⟩ := u
    rw [updates_snoc, history_snoc]
    have hup := update_fix (s.updates us).2 v t
    rw [updates_target] at hup
    rcases hup with ⟨h1, h2⟩ | ⟨h1, h2, h3⟩ | ⟨h1, h2, h3, h4⟩
    · refine ⟨fun _ => ?_, fun h => by rw [h2] at h; cases h⟩
      obtain ⟨pre, mid, post, first, last, e, hm, hh, hl, hlt⟩ := ih.1 h1
      exact ⟨pre, mid, post ++ [⟨v, t, ((s.updates us).2.update v t).1⟩], first, last,
        by rw [e]; simp, hm, hh, hl, hlt⟩
    · rcases h3 with ⟨h3, h4, h5⟩ | ⟨t₀, h3, h4, h5⟩
      · refine ⟨fun h => (by rw [h4] at h; cases h), fun _ t₀ h => ?_⟩
        rw [h5] at h
        cases h
        exact ⟨history s us, [_], _, rfl, by simpa using h2, rfl, rfl⟩
      · obtain ⟨pre, mid, first, e, hm, hh, hft⟩ := ih.2 h1 t₀ h3
        have hm' : ∀ u ∈ mid ++ [⟨v, t, ((s.updates us).2.update v t).1⟩],
            OnTarget s.target u := by
          intro u hu
          rcases List.mem_append.1 hu with hu | hu
          · exact hm u hu
          · rw [List.mem_singleton] at hu; subst hu; exact h2
        refine ⟨fun h => ?_, fun _ t₁ h => ?_⟩
        · rw [h5] at h
          refine ⟨pre, mid ++ [_], [], first, _, ?_, hm', ?_, List.getLast?_concat, ?_⟩
          · rw [e]; simp
          · rw [List.head?_append, hh]; rfl
          · rw [hft]; exact h
        · rw [h4] at h
          cases h
          refine ⟨pre, mid ++ [_], first, by rw [e]; simp, hm', ?_, hft⟩
          rw [List.head?_append, hh]; rfl
    · exact ⟨fun h => (by rw [h3] at h; cases h), fun _ t₀ h => (by rw [h4] at h; cases h)⟩

theorem new_fresh {target t : F} {k : PidCoef} {s : Pid F} (h : Pid.new target k t = .ok s) :
    s.fixed = false ∧ s.timer = none ∧ s.target = target ∧ s.integral = PyNum.ofRat 0 ∧
      s.windup = PyNum.ofRat 1 /ₚ PyNum.ofRat k.i := by
  unfold Pid.new pdiv at h
  split at h
  · cases h
  · cases h; exact ⟨rfl, rfl, rfl, rfl, rfl⟩

end Any

section Exact

variable [PyRound]

/-- When the clock does not go backwards, holding the target long enough is recognised. -/
theorem fixed_complete (s : Pid ℝ) (ht : s.timer = none)
    (us : List (ℝ × ℝ)) (hmono : us.Pairwise fun a b => a.2 ≤ b.2)
    (h : HeldTarget s.target (history s us)) : (s.updates us).2.fixed = true := by
  obtain ⟨pre, mid, post, first, last, e, hm, hh, hl, hlt⟩ := h
  -- split the updates in the same way
  have hlen : (history s us).length = us.length := by
    simp [history, updates_length]
  obtain ⟨us1, us2, us3, rfl, h1, h2⟩ : ∃ us1 us2 us3, us = us1 ++ us2 ++ us3 ∧
      history s us1 = pre ∧ history (s.updates us1).2 us2 = mid := by
    refine ⟨us.take pre.length, (us.drop pre.length).take mid.length,
      (us.drop pre.length).drop mid.length, by simp, ?_⟩
    have e1 : us = us.take pre.length ++ ((us.drop pre.length).take mid.length ++
      (us.drop pre.length).drop mid.length) := by simp
    have e2 := e
    rw [e1, history_append, history_append, List.append_assoc] at e2
    have hl2 := hlen
    rw [e] at hl2
    simp only [List.length_append] at hl2
    have h3 := List.append_inj e2 (by
      simp only [history, List.length_map, List.length_zip, updates_length, List.length_take]
      omega)
    have h4 := List.append_inj h3.2 (by
      simp only [history, List.length_map, List.length_zip, updates_length, List.length_take,
        List.length_drop]
      omega)
    exact ⟨h3.1, h4.1⟩
  rw [updates_append]
  refine fixed_stays _ _ ?_
  rw [updates_append]
  -- the timer is never later than the last update
  have htim : ∀ t₀, (s.updates us1).2.timer = some t₀ → ∃ u ∈ us1, u.2 = t₀ := by
    clear h2 h1 hmono e hlen hm hh hl hlt
    induction us1 using List.reverseRecOn with
    | nil => intro t₀ h; change s.timer = some t₀ at h; rw [ht] at h; cases h
    | append_singleton us u ih =>
      obtain ⟨v, t⟩ := u
      intro t₀ h
      rw [updates_snoc] at h
      rcases update_fix (s.updates us).2 v t with ⟨h1, h2⟩ | ⟨h1, h2, h3⟩ | ⟨h1, h2, h3, h4⟩
      · have : ((s.updates us).2.update v t).2.timer = (s.updates us).2.timer := by
          change ((s.updates us).2.fix _ _ _).2 = _
          unfold Pid.fix
          rw [if_pos h1]
        rw [this] at h
        obtain ⟨u, hu, e⟩ := ih t₀ h
        exact ⟨u, List.mem_append_left _ hu, e⟩
      · rcases h3 with ⟨h3, h4, h5⟩ | ⟨t₁, h3, h4, h5⟩
        · rw [h5] at h; cases h
          exact ⟨(v, t), by simp, rfl⟩
        · rw [h4] at h; cases h
          obtain ⟨u, hu, e⟩ := ih t₀ h3
          exact ⟨u, List.mem_append_left _ hu, e⟩
      · rw [h4] at h; cases h
  have htarget : (s.updates us1).2.target = s.target := updates_target s us1
  obtain ⟨⟨v0, t0⟩, rest, hus2⟩ : ∃ u rest, us2 = u :: rest := by
    cases us2 with
    | nil => rw [← h2] at hh; cases hh
    | cons u r => exact ⟨u, r, rfl⟩
  have hfirst : first.time = t0 := by
    rw [← h2, hus2] at hh
    cases hh; rfl
  have hle : ∀ u ∈ us1, u.2 ≤ t0 := by
    intro u hu
    rw [List.append_assoc, List.pairwise_append] at hmono
    exact hmono.2.2 u hu (v0, t0) (by simp [hus2])
  have key : ∀ ws, ws ≠ [] → (∀ u ∈ history (s.updates us1).2 ws, OnTarget s.target u) →
      (∃ r, us2 = ws ++ r) →
      ((s.updates us1).2.updates ws).2.fixed = true ∨
      ∃ t₁ ≤ t0, ((s.updates us1).2.updates ws).2.timer = some t₁ ∧
        ∀ v t, ws.getLast? = some (v, t) → t - t₁ ≤ 5 / 2 := by
    intro ws
    induction ws using List.reverseRecOn with
    | nil => intro h; exact absurd rfl h
    | append_singleton ws u ih =>
      obtain ⟨v, t⟩ := u
      intro _ hon hpre
      obtain ⟨r, hr⟩ := hpre
      rw [updates_snoc]
      rw [history_snoc] at hon
      have hup := update_fix ((s.updates us1).2.updates ws).2 v t
      rw [updates_target, htarget] at hup
      have hlast : OnTarget s.target
          ⟨v, t, (((s.updates us1).2.updates ws).2.update v t).1⟩ := hon _ (by simp)
      rcases hup with ⟨h1, h2⟩ | ⟨h1, h2, h3⟩ | ⟨h1, h2, h3, h4⟩
      · exact .inl h2
      · by_cases hws : ws = []
        · subst hws
          have ht0 : t = t0 := by
            rw [hus2] at hr
            cases hr; rfl
          rcases h3 with ⟨h3, h4, h5⟩ | ⟨t₁, h3, h4, h5⟩
          · refine .inr ⟨t, ht0.le, h5, fun v' t' h => ?_⟩
            cases h
            norm_num
          · obtain ⟨u, hu, hu2⟩ := htim t₁ h3
            by_cases hfx : 5 / 2 < t - t₁
            · left
              rw [h5]
              simpa using hfx
            · refine .inr ⟨t₁, hu2 ▸ hle u hu, h4, fun v' t' h => ?_⟩
              cases h
              linarith
        · rcases ih hws (fun u hu => hon u (List.mem_append_left _ hu))
            ⟨(v, t) :: r, by rw [hr]; simp⟩ with hfx | ⟨t₁, ht₁, htm, _⟩
          · rw [hfx] at h1; cases h1
          · rcases h3 with ⟨h3, h4, h5⟩ | ⟨t₂, h3, h4, h5⟩
            · rw [h3] at htm; cases htm
            · rw [h3] at htm; cases htm
              by_cases hfx : 5 / 2 < t - t₁
              · left
                rw [h5]
                simpa using hfx
              · refine .inr ⟨t₁, ht₁, h4, fun v' t' h => ?_⟩
                rw [List.getLast?_concat] at h
                cases h
                linarith
      · exact absurd hlast h2
  rcases key us2 (by rw [hus2]; simp) (by rw [h2]; exact hm) ⟨[], by simp⟩ with h | ⟨t₁, ht₁, _, h⟩
  · exact h
  · exfalso
    obtain ⟨⟨v, t⟩, hvt⟩ : ∃ u, us2.getLast? = some u := by
      rw [hus2]; exact ⟨_, List.getLast?_eq_getLast_of_ne_nil (by simp)⟩
    have hle2 := h v t hvt
    have hlt' : last.time = t := by
      rw [← h2] at hl
      obtain ⟨w, hw⟩ : ∃ w, us2 = w ++ [(v, t)] := by
        exact List.getLast?_eq_some_iff.1 hvt
      rw [hw, history_snoc, List.getLast?_concat] at hl
      cases hl; rfl
    simp only [lt_iff, ofRat_eq, sub_eq, hlt', hfirst] at hlt
    norm_num at hlt
    linarith

/-- The output is a fraction. -/
theorem clampOutput_mem (r : ℝ) : 0 ≤ clampOutput r ∧ clampOutput r ≤ 1 := by
  unfold clampOutput
  simp only [lt_iff, ofRat_eq, Rat.cast_one, Rat.cast_zero]
  split_ifs <;> constructor <;> linarith

theorem clampIntegral_abs {l v : ℝ} (hl : 0 ≤ l) : |clampIntegral l v| ≤ l := by
  unfold clampIntegral copysign
  simp only [lt_iff, ofRat_eq, Rat.cast_zero, abs_eq, neg_eq]
  split_ifs with h1 h2
  · rw [abs_neg, abs_of_nonneg hl]
  · rw [abs_of_nonneg hl]
  · linarith

theorem updates_out (s : Pid ℝ) (us : List (ℝ × ℝ)) : ∀ r ∈ (s.updates us).1, 0 ≤ r ∧ r ≤ 1 := by
  induction us generalizing s with
  | nil => intro r hr; cases hr
  | cons u us ih =>
    obtain ⟨v, t⟩ := u
    intro r hr
    rcases List.mem_cons.1 hr with rfl | hr
    · exact clampOutput_mem _
    · exact ih _ r hr

theorem updates_integral (s : Pid ℝ) (us : List (ℝ × ℝ)) (hl : 0 ≤ s.windup)
    (h : |s.integral| ≤ s.windup) : |(s.updates us).2.integral| ≤ s.windup := by
  induction us generalizing s with
  | nil => exact h
  | cons u us ih =>
    obtain ⟨v, t⟩ := u
    exact ih (s.update v t).2 hl (clampIntegral_abs hl)

end Exact

section Binary64

variable [PyRound]

theorem F64.ofRat_val_int (n : ℤ) (h : |n| ≤ 2 ^ 53) : (PyNum.ofRat (n : ℚ) : F64).1 = n := by
  change fl (((n : ℤ) : ℚ) : ℝ) = n
  rw [Rat.cast_intCast, fl_int n h]

theorem F64.lt_val (a b : F64) : (a <ₚ b) = true ↔ a.1 < b.1 := decide_eq_true_iff

theorem clampOutput_mem_binary64 (r : F64) : 0 ≤ (clampOutput r).1 ∧ (clampOutput r).1 ≤ 1 := by
  have h0 : (PyNum.ofRat 0 : F64).1 = 0 := by simpa using F64.ofRat_val_int 0 (by norm_num)
  have h1 : (PyNum.ofRat 1 : F64).1 = 1 := by simpa using F64.ofRat_val_int 1 (by norm_num)
  unfold clampOutput
  simp only [F64.lt_val, h0, h1]
  split_ifs <;> constructor <;> linarith

theorem clampIntegral_abs_binary64 {l v : F64} (hl : 0 ≤ l.1) : |(clampIntegral l v).1| ≤ l.1 := by
  have hab : (PyNum.abs v : F64).1 = |v.1| := fl_abs_rep v.2
  have hneg : (PyNum.neg l : F64).1 = -l.1 := fl_neg_rep l.2
  unfold clampIntegral copysign
  simp only [F64.lt_val, hab]
  split_ifs with h1 h2
  · rw [hneg, abs_neg, abs_of_nonneg hl]
  · rw [abs_of_nonneg hl]
  · linarith

theorem updates_out_binary64 (s : Pid F64) (us : List (F64 × F64)) :
    ∀ r ∈ (s.updates us).1, 0 ≤ r.1 ∧ r.1 ≤ 1 := by
  induction us generalizing s with
  | nil => intro r hr; cases hr
  | cons u us ih =>
    obtain ⟨v, t⟩ := u
    intro r hr
    rcases List.mem_cons.1 hr with rfl | hr
    · exact clampOutput_mem_binary64 _
    · exact ih _ r hr

theorem updates_integral_binary64 (s : Pid F64) (us : List (F64 × F64)) (hl : 0 ≤ s.windup.1)
    (h : |s.integral.1| ≤ s.windup.1) : |(s.updates us).2.integral.1| ≤ s.windup.1 := by
  induction us generalizing s with
  | nil => exact h
  | cons u us ih =>
    obtain ⟨v, t⟩ := u
    exact ih (s.update v t).2 hl (clampIntegral_abs_binary64 hl)

end Binary64

end PyCNC
