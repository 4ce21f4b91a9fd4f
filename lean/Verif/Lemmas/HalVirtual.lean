import Verif.Model.HalVirtual
import Verif.Lemmas.LinearRun

/-!
# Lemmas about the virtual machine
-/

set_option linter.unusedSectionVars false

namespace PyCNC

open Spec

namespace HalVirtual

variable {F : Type} [PyNum F]

/-- The time of a pulse in whole microseconds. -/
def stamp (t : F) : Int := PyNum.roundI (t *ₚ PyNum.ofRat 1000000)

/-- The local variables of an axis after an event. -/
def Track.next (t : Option F) (s : Track F) : Track F :=
  match t with
  | none => s
  | some t => ⟨s.i + s.dir, some (stamp t), if s.top <ₚ t then t else s.top, s.dir⟩

theorem track_ok {name : String} {t : Option F} {s s' : Track F} {k : Option Int}
    (h : track name t s = .ok (s', k)) :
    s' = s.next t ∧ k = t.map stamp ∧ ∀ τ l, t = some τ → s.last = some l → l < stamp τ := by
  unfold track at h
  rcases t with _ | τ
  · cases h
    exact ⟨rfl, rfl, fun τ l h => by cases h⟩
  · simp only at h
    rcases hl : s.last with _ | l
    · rw [hl] at h
      cases h
      exact ⟨rfl, rfl, fun τ l _ h => by cases h⟩
    · rw [hl] at h
      simp only at h
      split at h
      · rename_i hk
        cases h
        refine ⟨rfl, rfl, fun τ' l' h1 h2 => ?_⟩
        cases h1; cases h2
        unfold stamp
        omega
      · cases h

theorem track_of {name : String} {t : Option F} {s : Track F}
    (h : ∀ τ l, t = some τ → s.last = some l → l < stamp τ) :
    track name t s = .ok (s.next t, t.map stamp) := by
  unfold track
  rcases t with _ | τ
  · rfl
  · simp only
    rcases hl : s.last with _ | l
    · rfl
    · have := h τ l rfl hl
      unfold stamp at this
      simp only
      rw [if_pos (by omega)]
      rfl

theorem track_error {name : String} {t : Option F} {s : Track F} {e : PyErr}
    (h : track name t s = .error e) : ∃ msg, e = .assertion msg := by
  unfold track at h
  rcases t with _ | τ
  · cases h
  · simp only at h
    rcases hl : s.last with _ | l
    · rw [hl] at h; cases h
    · rw [hl] at h
      simp only at h
      split at h
      · cases h
      · cases h; exact ⟨_, rfl⟩

/-- The local variables after an event that passes. -/
def St.next (c : Cfg) (ev : Event F) (s : St F) : St F :=
  match ev with
  | .dir d => ⟨V4.ofFn fun ax => { s.tr.get ax with
      dir := if c.inverted.get ax then - d.get ax else d.get ax }, true⟩
  | .pulse t => ⟨V4.ofFn fun ax => (s.tr.get ax).next (t.get ax), s.found⟩

theorem body_dir {c : Cfg} {linear : Bool} {delta : V4 F} {d : V4 Int} {s : St F}
    (h : linear = true → ∀ ax, dirFits (if c.inverted.get ax then - d.get ax else d.get ax)
      (delta.get ax) = true) :
    body c linear delta (.dir d) s = .ok (s.next c (.dir d)) := by
  unfold body
  simp only
  split
  · rename_i hc
    simp only [Bool.and_eq_true, Bool.not_eq_true', Bool.and_eq_false_iff] at hc
    exfalso
    obtain ⟨h1, ((h2 | h2) | h2) | h2⟩ := hc
    · exact Bool.false_ne_true (h2.symm.trans (h h1 .x))
    · exact Bool.false_ne_true (h2.symm.trans (h h1 .y))
    · exact Bool.false_ne_true (h2.symm.trans (h h1 .z))
    · exact Bool.false_ne_true (h2.symm.trans (h h1 .e))
  · rfl

theorem body_dir_inv {c : Cfg} {linear : Bool} {delta : V4 F} {d : V4 Int} {s s' : St F}
    (h : body c linear delta (.dir d) s = .ok s') :
    s' = s.next c (.dir d) ∧ (linear = true → ∀ ax,
      dirFits (if c.inverted.get ax then - d.get ax else d.get ax) (delta.get ax) = true) := by
  unfold body at h
  simp only at h
  split at h
  · cases h
  · rename_i hc
    cases h
    refine ⟨rfl, fun hl ax => ?_⟩
    simp only [hl, Bool.true_and, Bool.not_eq_true', Bool.not_eq_false, Bool.and_eq_true] at hc
    obtain ⟨⟨⟨h1, h2⟩, h3⟩, h4⟩ := hc
    cases ax
    · exact h1
    · exact h2
    · exact h3
    · exact h4

/-- What the checks of a pulse event say. -/
structure Passes (t : V4 (Option F)) (s : St F) : Prop where
  later : ∀ ax τ l, t.get ax = some τ → (s.tr.get ax).last = some l → l < stamp τ
  fires : ∃ ax τ, t.get ax = some τ
  same : ∀ ax τ ax' τ', t.get ax = some τ → t.get ax' = some τ' → stamp τ = stamp τ'

theorem same_count {l : List Int} {k : Int} : l.count k = l.length ↔ ∀ b ∈ l, k = b :=
  List.count_eq_length

theorem mem_stamps {t : V4 (Option F)} {k : Int} :
    k ∈ [t.x.map stamp, t.y.map stamp, t.z.map stamp, t.e.map stamp].filterMap id ↔
      ∃ ax τ, t.get ax = some τ ∧ k = stamp τ := by
  simp only [List.mem_filterMap, List.mem_cons, List.not_mem_nil, or_false, id]
  constructor
  · rintro ⟨o, rfl | rfl | rfl | rfl, h⟩
    · obtain ⟨τ, h1, h2⟩ := Option.map_eq_some_iff.1 h
      exact ⟨.x, τ, h1, h2.symm⟩
    · obtain ⟨τ, h1, h2⟩ := Option.map_eq_some_iff.1 h
      exact ⟨.y, τ, h1, h2.symm⟩
    · obtain ⟨τ, h1, h2⟩ := Option.map_eq_some_iff.1 h
      exact ⟨.z, τ, h1, h2.symm⟩
    · obtain ⟨τ, h1, h2⟩ := Option.map_eq_some_iff.1 h
      exact ⟨.e, τ, h1, h2.symm⟩
  · rintro ⟨ax, τ, h1, rfl⟩
    refine ⟨(t.get ax).map stamp, ?_, by rw [h1]; rfl⟩
    cases ax
    · exact .inl rfl
    · exact .inr (.inl rfl)
    · exact .inr (.inr (.inl rfl))
    · exact .inr (.inr (.inr rfl))

theorem body_pulse {c : Cfg} {linear : Bool} {delta : V4 F} {t : V4 (Option F)} {s : St F}
    (h : Passes t s) : body c linear delta (.pulse t) s = .ok (s.next c (.pulse t)) := by
  have hx : track "x" t.x s.tr.x = _ := track_of fun τ l h1 h2 => h.later .x τ l h1 h2
  have hy : track "y" t.y s.tr.y = _ := track_of fun τ l h1 h2 => h.later .y τ l h1 h2
  have hz : track "z" t.z s.tr.z = _ := track_of fun τ l h1 h2 => h.later .z τ l h1 h2
  have he : track "e" t.e s.tr.e = _ := track_of fun τ l h1 h2 => h.later .e τ l h1 h2
  unfold body
  simp only
  rw [hx, hy, hz, he]
  change (match [t.x.map stamp, t.y.map stamp, t.z.map stamp, t.e.map stamp].filterMap id with
    | [] => Except.error PyErr.type
    | k :: f => _) = _
  have hm := @mem_stamps F _ t
  generalize [t.x.map stamp, t.y.map stamp, t.z.map stamp, t.e.map stamp].filterMap id = l at hm
  rcases l with _ | ⟨k, f⟩
  · obtain ⟨ax, τ, h1⟩ := h.fires
    exact absurd (hm.2 ⟨ax, τ, h1, rfl⟩) (by simp)
  · simp only
    rw [if_pos]
    · rfl
    · rw [same_count]
      intro b hb
      obtain ⟨ax, τ, h1, rfl⟩ := hm.1 (List.mem_cons_self (a := k) (l := f))
      obtain ⟨ax', τ', h2, rfl⟩ := hm.1 hb
      exact h.same ax τ ax' τ' h1 h2

theorem body_pulse_inv {c : Cfg} {linear : Bool} {delta : V4 F} {t : V4 (Option F)} {s s' : St F}
    (h : body c linear delta (.pulse t) s = .ok s') : s' = s.next c (.pulse t) ∧ Passes t s := by
  unfold body at h
  simp only at h
  rcases hx : track "x" t.x s.tr.x with e | ⟨x, kx⟩
  · rw [hx] at h; cases h
  rcases hy : track "y" t.y s.tr.y with e | ⟨y, ky⟩
  · rw [hx, hy] at h; cases h
  rcases hz : track "z" t.z s.tr.z with e | ⟨z, kz⟩
  · rw [hx, hy, hz] at h; cases h
  rcases he : track "e" t.e s.tr.e with e | ⟨e, ke⟩
  · rw [hx, hy, hz, he] at h; cases h
  rw [hx, hy, hz, he] at h
  obtain ⟨rfl, rfl, lx⟩ := track_ok hx
  obtain ⟨rfl, rfl, ly⟩ := track_ok hy
  obtain ⟨rfl, rfl, lz⟩ := track_ok hz
  obtain ⟨rfl, rfl, le⟩ := track_ok he
  change (match [t.x.map stamp, t.y.map stamp, t.z.map stamp, t.e.map stamp].filterMap id with
    | [] => Except.error PyErr.type
    | k :: f => _) = _ at h
  have hm := @mem_stamps F _ t
  generalize [t.x.map stamp, t.y.map stamp, t.z.map stamp, t.e.map stamp].filterMap id = l at hm h
  rcases l with _ | ⟨k, f⟩
  · cases h
  · simp only at h
    split at h
    · rename_i hcount
      cases h
      rw [same_count] at hcount
      refine ⟨rfl, ⟨fun ax => ?_, ?_, fun ax τ ax' τ' h1 h2 => ?_⟩⟩
      · cases ax
        · exact lx
        · exact ly
        · exact lz
        · exact le
      · obtain ⟨ax, τ, h1, _⟩ := hm.1 (List.mem_cons_self (a := k) (l := f))
        exact ⟨ax, τ, h1⟩
      · rw [← hcount _ (hm.2 ⟨ax, τ, h1, rfl⟩), ← hcount _ (hm.2 ⟨ax', τ', h2, rfl⟩)]
    · cases h

theorem body_error {c : Cfg} {linear : Bool} {delta : V4 F} {ev : Event F} {s : St F} {e : PyErr}
    (h : body c linear delta ev s = .error e) (hs : ¬ IsDir ev → ∃ τ, StepsAt τ ev) :
    ∃ msg, e = .assertion msg := by
  unfold body at h
  rcases ev with d | t
  · simp only at h
    split at h
    · cases h; exact ⟨_, rfl⟩
    · cases h
  · simp only at h
    rcases hx : track "x" t.x s.tr.x with e | ⟨x, kx⟩
    · rw [hx] at h; cases h; exact track_error hx
    rcases hy : track "y" t.y s.tr.y with e | ⟨y, ky⟩
    · rw [hx, hy] at h; cases h; exact track_error hy
    rcases hz : track "z" t.z s.tr.z with e | ⟨z, kz⟩
    · rw [hx, hy, hz] at h; cases h; exact track_error hz
    rcases he : track "e" t.e s.tr.e with e | ⟨e, ke⟩
    · rw [hx, hy, hz, he] at h; cases h; exact track_error he
    rw [hx, hy, hz, he] at h
    obtain ⟨rfl, rfl, _⟩ := track_ok hx
    obtain ⟨rfl, rfl, _⟩ := track_ok hy
    obtain ⟨rfl, rfl, _⟩ := track_ok hz
    obtain ⟨rfl, rfl, _⟩ := track_ok he
    change (match [t.x.map stamp, t.y.map stamp, t.z.map stamp, t.e.map stamp].filterMap id with
      | [] => Except.error PyErr.type
      | k :: f => _) = _ at h
    have hm := @mem_stamps F _ t
    generalize [t.x.map stamp, t.y.map stamp, t.z.map stamp, t.e.map stamp].filterMap id = l at hm h
    rcases l with _ | ⟨k, f⟩
    · obtain ⟨τ, ⟨ax, h1⟩, _⟩ := hs id
      exact absurd (hm.2 ⟨ax, τ, h1, rfl⟩) (by simp)
    · simp only at h
      split at h
      · cases h
      · cases h; exact ⟨_, rfl⟩

theorem loop_cons {c : Cfg} {linear : Bool} {delta : V4 F} {ev : Event F} {evs : List (Event F)}
    {s s' : St F} (h : loop c linear delta (ev :: evs) s = .ok s') :
    ∃ m, body c linear delta ev s = .ok m ∧ m = s.next c ev ∧
      loop c linear delta evs m = .ok s' := by
  rw [loop] at h
  rcases hb : body c linear delta ev s with e | m
  · rw [hb] at h; cases h
  · rw [hb] at h
    refine ⟨m, rfl, ?_, h⟩
    rcases ev with d | t
    · exact (body_dir_inv hb).1
    · exact (body_pulse_inv hb).1

theorem loop_error {c : Cfg} {linear : Bool} {delta : V4 F} {evs : List (Event F)} {s : St F}
    {e : PyErr} (hs : ∀ ev ∈ evs, ¬ IsDir ev → ∃ τ, StepsAt τ ev)
    (h : loop c linear delta evs s = .error e) : ∃ msg, e = .assertion msg := by
  induction evs generalizing s with
  | nil => cases h
  | cons ev evs ih =>
    rw [loop] at h
    rcases hb : body c linear delta ev s with e' | m
    · rw [hb] at h; cases h
      exact body_error hb (hs ev List.mem_cons_self)
    · rw [hb] at h
      exact ih (fun ev' hev => hs ev' (List.mem_cons_of_mem _ hev)) h

theorem finish_error {c : Cfg} {g : Gen F} {s : St F} {e : PyErr} (h : finish c g s = .error e) :
    ∃ msg, e = .assertion msg := by
  unfold finish at h
  repeat' split at h
  all_goals first | (cases h; exact ⟨_, rfl⟩) | cases h

theorem finish_iff {c : Cfg} {g : Gen F} {s : St F} : finish c g s = .ok () ↔
    s.found = true ∧ (∀ ax, countFits (s.tr.get ax).i (c.ppm.get ax) (g.delta.get ax) = true) ∧
    (pmax (pmax (pmax s.tr.x.top s.tr.y.top) s.tr.z.top) s.tr.e.top ≤ₚ g.totalTime) = true := by
  unfold finish
  constructor
  · intro h
    repeat' split at h
    all_goals first | (cases h; done) | skip
    rename_i h1 h2 h3 h4 h5 h6
    simp only [Bool.not_eq_true', Bool.not_eq_false] at h1 h2 h3 h4 h5 h6
    refine ⟨h1, fun ax => ?_, h6⟩
    cases ax
    · exact h2
    · exact h3
    · exact h4
    · exact h5
  · rintro ⟨h1, h2, h3⟩
    have hx : countFits s.tr.x.i c.ppm.x g.delta.x = true := h2 .x
    have hy : countFits s.tr.y.i c.ppm.y g.delta.y = true := h2 .y
    have hz : countFits s.tr.z.i c.ppm.z g.delta.z = true := h2 .z
    have he : countFits s.tr.e.i c.ppm.e g.delta.e = true := h2 .e
    simp [h1, hx, hy, hz, he, h3]

/-- The counter of an axis after the loop. -/
theorem loop_count {c : Cfg} {linear : Bool} {delta : V4 F} {evs : List (Event F)} {s s' : St F}
    (h : loop c linear delta evs s = .ok s') (ax : Axis) :
    (s'.tr.get ax).i = (s.tr.get ax).i + netFrom c ax (s.tr.get ax).dir evs := by
  induction evs generalizing s with
  | nil => cases h; simp [netFrom]
  | cons ev evs ih =>
    obtain ⟨m, _, rfl, h2⟩ := loop_cons h
    rw [ih h2]
    rcases ev with d | t
    · simp only [St.next, get_ofFn, netFrom]
    · simp only [St.next, get_ofFn, netFrom, Track.next]
      rcases t.get ax with _ | τ
      · simp
      · simp; ring

/-- The stamps of an axis that pass the loop increase. -/
theorem loop_stamps {c : Cfg} {linear : Bool} {delta : V4 F} {evs : List (Event F)} {s s' : St F}
    (h : loop c linear delta evs s = .ok s') (ax : Axis) :
    ((stepTimes ax evs).map stamp).Pairwise (· < ·) ∧
      ∀ l, (s.tr.get ax).last = some l → ∀ τ ∈ stepTimes ax evs, l < stamp τ := by
  induction evs generalizing s with
  | nil => exact ⟨List.Pairwise.nil, fun l _ τ hτ => by cases hτ⟩
  | cons ev evs ih =>
    obtain ⟨m, hb, rfl, h2⟩ := loop_cons h
    obtain ⟨h3, h4⟩ := ih h2
    rcases ev with d | t
    · refine ⟨h3, fun l hl τ hτ => h4 l ?_ τ hτ⟩
      simpa only [St.next, get_ofFn] using hl
    · obtain ⟨_, hp⟩ := body_pulse_inv hb
      rcases ht : t.get ax with _ | τ₀
      · have e : stepTimes ax (Event.pulse t :: evs) = stepTimes ax evs := by
          rw [stepTimes, ht]
        rw [e]
        refine ⟨h3, fun l hl τ hτ => h4 l ?_ τ hτ⟩
        simpa only [St.next, get_ofFn, ht, Track.next] using hl
      · have e : stepTimes ax (Event.pulse t :: evs) = τ₀ :: stepTimes ax evs := by
          rw [stepTimes, ht]
        have hlast : ((s.next c (.pulse t)).tr.get ax).last = some (stamp τ₀) := by
          simp only [St.next, get_ofFn, ht, Track.next]
        have h5 := h4 _ hlast
        rw [e, List.map_cons]
        refine ⟨List.Pairwise.cons (fun k hk => ?_) h3, fun l hl τ hτ => ?_⟩
        · obtain ⟨τ, hτ, rfl⟩ := List.mem_map.1 hk
          exact h5 τ hτ
        · have h6 := hp.later ax τ₀ l ht hl
          rcases List.mem_cons.1 hτ with rfl | hτ
          · exact h6
          · exact h6.trans (h5 τ hτ)

/-- The events of a passing loop. -/
theorem loop_same {c : Cfg} {linear : Bool} {delta : V4 F} {evs : List (Event F)} {s s' : St F}
    (h : loop c linear delta evs s = .ok s') {t : V4 (Option F)} (ht : .pulse t ∈ evs)
    {ax ax' : Axis} {τ τ' : F} (h1 : t.get ax = some τ) (h2 : t.get ax' = some τ') :
    stamp τ = stamp τ' := by
  induction evs generalizing s with
  | nil => cases ht
  | cons ev evs ih =>
    obtain ⟨m, hb, _, h3⟩ := loop_cons h
    rcases List.mem_cons.1 ht with rfl | ht
    · exact (body_pulse_inv hb).2.same ax τ ax' τ' h1 h2
    · exact ih h3 ht

theorem loop_dirs {c : Cfg} {delta : V4 F} {evs : List (Event F)} {s s' : St F}
    (h : loop c true delta evs s = .ok s') {d : V4 Int} (hd : .dir d ∈ evs) (ax : Axis) :
    dirFits (if c.inverted.get ax then - d.get ax else d.get ax) (delta.get ax) = true := by
  induction evs generalizing s with
  | nil => cases hd
  | cons ev evs ih =>
    obtain ⟨m, hb, _, h3⟩ := loop_cons h
    rcases List.mem_cons.1 hd with rfl | hd
    · exact (body_dir_inv hb).2 rfl ax
    · exact ih h3 hd

/-- The largest time of an axis. -/
theorem loop_top [PyOrd F] {c : Cfg} {linear : Bool} {delta : V4 F} {evs : List (Event F)}
    {s s' : St F} (h : loop c linear delta evs s = .ok s') (ax : Axis) :
    (s'.tr.get ax).top ∈ (s.tr.get ax).top :: stepTimes ax evs ∧
    ∀ τ ∈ (s.tr.get ax).top :: stepTimes ax evs,
      PyOrd.val τ ≤ PyOrd.val (s'.tr.get ax).top := by
  induction evs generalizing s with
  | nil =>
    cases h
    refine ⟨List.mem_cons_self, fun τ hτ => ?_⟩
    simp only [stepTimes, List.mem_singleton] at hτ
    rw [hτ]
  | cons ev evs ih =>
    obtain ⟨m, hb, rfl, h2⟩ := loop_cons h
    obtain ⟨h3, h4⟩ := ih h2
    rcases ev with d | t
    · simp only [St.next, get_ofFn] at h3 h4
      exact ⟨h3, h4⟩
    · rcases ht : t.get ax with _ | τ₀
      · simp only [St.next, get_ofFn, ht, Track.next] at h3 h4
        simp only [stepTimes, ht]
        exact ⟨h3, h4⟩
      · simp only [St.next, get_ofFn, ht, Track.next] at h3 h4
        simp only [stepTimes, ht]
        by_cases hlt : ((s.tr.get ax).top <ₚ τ₀) = true
        · rw [if_pos hlt] at h3 h4
          refine ⟨List.mem_cons_of_mem _ h3, fun τ hτ => ?_⟩
          rcases List.mem_cons.1 hτ with rfl | hτ
          · have h5 := (PyOrd.lt_val _ _).1 hlt
            exact h5.le.trans (h4 _ List.mem_cons_self)
          · exact h4 τ hτ
        · rw [if_neg hlt] at h3 h4
          refine ⟨?_, fun τ hτ => ?_⟩
          · rcases List.mem_cons.1 h3 with h3 | h3
            · rw [h3]; exact List.mem_cons_self
            · exact List.mem_cons_of_mem _ (List.mem_cons_of_mem _ h3)
          · have h5 := mt (PyOrd.lt_val _ _).2 hlt
            push Not at h5
            rcases List.mem_cons.1 hτ with rfl | hτ
            · exact h4 _ List.mem_cons_self
            · rcases List.mem_cons.1 hτ with rfl | hτ
              · exact h5.trans (h4 _ List.mem_cons_self)
              · exact h4 _ (List.mem_cons_of_mem _ hτ)

/-- A loop over pulses passes when the stamps increase. -/
theorem loop_pulses {c : Cfg} {linear : Bool} {delta : V4 F} {evs : List (Event F)} {s : St F}
    (hp : ∀ ev ∈ evs, ∃ τ, StepsAt τ ev)
    (hi : ∀ ax, ((stepTimes ax evs).map stamp).Pairwise (· < ·))
    (hl : ∀ ax l, (s.tr.get ax).last = some l → ∀ τ ∈ stepTimes ax evs, l < stamp τ) :
    ∃ s', loop c linear delta evs s = .ok s' ∧ s'.found = s.found := by
  induction evs generalizing s with
  | nil => exact ⟨s, rfl, rfl⟩
  | cons ev evs ih =>
    obtain ⟨τ₀, h0⟩ := hp ev List.mem_cons_self
    rcases ev with d | t
    · exact h0.elim
    obtain ⟨⟨ax₀, hax⟩, hsame⟩ := h0
    have hpass : Passes t s := by
      refine ⟨fun ax τ l h1 h2 => hl ax l h2 τ ?_, ⟨ax₀, τ₀, hax⟩, fun ax τ ax' τ' h1 h2 => ?_⟩
      · rw [stepTimes, h1]; exact List.mem_cons_self
      · rw [hsame ax τ h1, hsame ax' τ' h2]
    have hb := body_pulse (c := c) (linear := linear) (delta := delta) hpass
    have hrest : ∀ ax, ((stepTimes ax evs).map stamp).Pairwise (· < ·) := fun ax => by
      have := hi ax
      rw [stepTimes] at this
      split at this
      · exact this
      · rw [List.map_cons] at this
        exact (List.pairwise_cons.1 this).2
    obtain ⟨s', h1, h2⟩ := ih (s := s.next c (.pulse t))
      (fun ev hev => hp ev (List.mem_cons_of_mem _ hev)) hrest (fun ax l hlast τ hτ => by
        rcases ht : t.get ax with _ | τ₁
        · simp only [St.next, get_ofFn, ht, Track.next] at hlast
          refine hl ax l hlast τ ?_
          rw [stepTimes, ht]; exact hτ
        · simp only [St.next, get_ofFn, ht, Track.next] at hlast
          cases hlast
          have := hi ax
          rw [stepTimes, ht, List.map_cons] at this
          exact (List.pairwise_cons.1 this).1 _ (List.mem_map_of_mem hτ))
    refine ⟨s', ?_, h2⟩
    rw [loop, hb]
    exact h1

/-- The first event of a generator announces the directions. -/
theorem run_first (c : Cfg) (g : Gen F) (n : Nat) {evs : List (Event F)}
    (h : g.run c n .init = (evs, .done)) : ∃ d r, evs = .dir d :: r := by
  cases n with
  | zero => cases h
  | succ n =>
    rcases next_cases c g .init with ⟨e, _, h2⟩ | ⟨d, t, _, h2⟩
    · rw [Gen.run, h2] at h; cases h
    · rcases h2 with ⟨_, h2⟩ | ⟨h3, _⟩ | ⟨_, h3, _⟩
      · rw [Gen.run, h2] at h
        exact ⟨_, _, (congrArg Prod.fst h).symm⟩
      · cases h3
      · cases h3

end HalVirtual

end PyCNC
