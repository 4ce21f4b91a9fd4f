import Verif.Lemmas.Shift
import Verif.Props.Anywhere

/-!
# Property C104: programs do not depend on where their origin is

Exact arithmetic, for every nearest-integer rounding (`PyRound`).
-/

namespace PyCNC.Props

open PyCNC Spec

variable [PyRound] {c : Cfg} {env : Env ℝ}

/-- No line of the program is about the origin of the machine: homing, `G53`, or the end that clears the offset. -/
def NoMachineOrigin [PyText] (ls : List (List Char)) : Prop :=
  ∀ l ∈ ls, ∀ g, parseLine l = .ok (some g) →
    ¬ IsOneOf g [('G', "28"), ('G', "53"), ('M', "2"), ('M', "30")]

theorem doLine_shifted [PyText] {l : List Char}
    (hl : ∀ g, parseLine l = .ok (some g) →
      ¬ IsOneOf g [('G', "28"), ('G', "53"), ('M', "2"), ('M', "30")])
    {s t : MState ℝ} (h : Shifted s t) {a b : Option (Answer ℝ)} (hs : (doLine c env l s).1 = .ok (.ok a))
    (ht : (doLine c env l t).1 = .ok (.ok b)) :
    Shifted (doLine c env l s).2 (doLine c env l t).2 ∧ ∃ calls,
      (doLine c env l s).2.trace = calls ++ s.trace ∧ (doLine c env l t).2.trace = calls ++ t.trace := by
  rcases hp : parseLine l with e | _ | g
  · simp only [doLine, hp]
    exact ⟨h, [], rfl, rfl⟩
  · have k1 : ∀ s : MState ℝ, doLine c env l s = (.ok (.ok none), s) := fun s => by
      simp only [doLine, hp]; rfl
    rw [k1, k1]
    exact ⟨h, [], rfl, rfl⟩
  · have hno := hl g hp
    have hpar : M.Along (doCommand c env (some g)) (doCommand c env (some g)) := by
      refine doCommand_along (fun k => hno ?_) (fun k => hno ?_) (fun k => hno ?_)
      all_goals exact lineCmd_mem k (by decide) (by decide) (by decide) (by decide)
    have k : ∀ s : MState ℝ, ∀ a, (doLine c env l s).1 = .ok (.ok a) →
        doCommand c env (some g) s = (.ok a, (doLine c env l s).2) := fun s a => by
      simp only [doLine, hp]
      rcases doCommand c env (some g) s with ⟨e | a, s'⟩
      · intro h
        cases e <;> simp [catchLine] at h
      · intro h
        cases h
        rfl
    exact hpar.run s t h a b _ _ (k s a hs) (k t b ht)

/-- **C104.** A program without homing, `G53`, `M2` and `M30`, in whatever mode and with whatever offsets of its
own, makes the same hardware calls, with the same arguments and in the same order, wherever its origin has been set
with `G92`, if the head is at the same place as seen from the origin, and all lines are accepted both times.  At the
end the head is again at the same place as seen from the origin, and the settings are the same. -/
theorem C104_origin [PyText] {ls : List (List Char)} (hls : NoMachineOrigin ls) {s t : MState ℝ}
    (hst : t = { s with pos := t.pos, loc := t.loc, trace := t.trace })
    (hsd : Decimal10 s.pos ∧ Decimal10 s.loc) (htd : Decimal10 t.pos ∧ Decimal10 t.loc)
    (hat : ∀ ax, t.pos.get ax - t.loc.get ax = s.pos.get ax - s.loc.get ax)
    (hs : AllAccepted (runLines c env ls s).1) (ht : AllAccepted (runLines c env ls t).1) :
    (∃ calls, (runLines c env ls s).2.trace = calls ++ s.trace ∧
      (runLines c env ls t).2.trace = calls ++ t.trace) ∧
    (∀ ax, (runLines c env ls t).2.pos.get ax - (runLines c env ls t).2.loc.get ax =
      (runLines c env ls s).2.pos.get ax - (runLines c env ls s).2.loc.get ax) ∧
    ∃ p l tr, (runLines c env ls t).2 = { (runLines c env ls s).2 with pos := p, loc := l, trace := tr } := by
  have key : ∀ (ls : List (List Char)), NoMachineOrigin ls → ∀ s t : MState ℝ, Shifted s t →
      AllAccepted (runLines c env ls s).1 → AllAccepted (runLines c env ls t).1 →
      Shifted (runLines c env ls s).2 (runLines c env ls t).2 ∧
      ∃ calls, (runLines c env ls s).2.trace = calls ++ s.trace ∧
        (runLines c env ls t).2.trace = calls ++ t.trace := by
    intro ls
    induction ls with
    | nil => exact fun _ s t h _ _ => ⟨h, [], rfl, rfl⟩
    | cons l ls ih =>
      intro hls s t h hs ht
      obtain ⟨a, ha⟩ := hs _ List.mem_cons_self
      obtain ⟨b, hb⟩ := ht _ List.mem_cons_self
      obtain ⟨h1, c1, h2, h3⟩ := doLine_shifted (env := env) (hls l (by simp)) h ha hb
      obtain ⟨h6, c2, h4, h5⟩ := ih (fun l hm => hls l (by simp [hm])) _ _ h1
        (fun r hr => hs r (List.mem_cons_of_mem _ hr)) (fun r hr => ht r (List.mem_cons_of_mem _ hr))
      exact ⟨h6, c2 ++ c1, by simp only [runLines]; rw [h4, h2, List.append_assoc],
        by simp only [runLines]; rw [h5, h3, List.append_assoc]⟩
  obtain ⟨h1, h2⟩ := key ls hls s t ⟨hst, hsd, htd, hat⟩ hs ht
  exact ⟨h2, h1.same, _, _, _, h1.eq⟩

/-! ### The line `X10` with two origins -/

/-- The default machine in absolute mode, with the head at the origin, which has been set `n` hundredths of a
millimetre from the one of the machine. -/
noncomputable def originAt (n : ℤ) : MState ℝ :=
  { (MState.init Cfg.default : MState ℝ) with pos := ⟨n / 100, 0, 0, 0⟩, loc := ⟨n / 100, 0, 0, 0⟩ }

theorem x10_runs_abs [PyText] (henv : ∀ tr, env.move tr = none) {n : ℤ} (h0 : 0 ≤ n) (h1 : n ≤ 19000) :
    ∃ s, doLine Cfg.default env "X10".toList (originAt n) = (.ok (.ok none), s) ∧
      s.trace ≠ (originAt n).trace := by
  have hi := plain_init
  have gr := gridV_hundredth n 0 0
  have grd := gridV_hundredth 1000 0 0
  norm_num at gr grd
  have hcv : (originAt n).conv = 1 := hi.conv
  have hlo : GridV (originAt n).loc := gr
  have htidy : Tidy (originAt n) := ⟨gr, hlo, .inl hcv⟩
  have hq : parseFloat "10".toList = some 10 := by decide +kernel
  have hnb : ¬ BadWord ⟨[('X', "10".toList)]⟩ := by
    rintro ⟨k', t', h1, h2⟩
    rw [List.lookup_cons] at h1
    split at h1
    · cases h1; rw [hq] at h2; cases h2
    · cases h1
  have hF : (⟨[('X', "10".toList)]⟩ : GCode).get 'F' (originAt n).vel (PyNum.ofRat 1) = .ok 600 := by
    have hk : List.lookup 'F' [('X', "10".toList)] = none := by decide
    unfold GCode.get GCode.lookup
    simp only [hk]
    exact congrArg Except.ok hi.vel
  have hmin : ((600 : ℝ) <ₚ PyNum.ofRat Cfg.default.minVel) = false := by
    rw [lt_false_iff, ofRat_eq]; norm_num [Cfg.default]
  have hd : ∀ d, readDelta (originAt n) ⟨[('X', "10".toList)]⟩ = .ok d → d = ⟨10, 0, 0, 0⟩ := by
    intro d hd
    apply V4.ext_get
    intro ax
    rcases (readDelta_ok htidy hd).2 ax with ⟨q, hq', h⟩ | ⟨hn, h⟩
    · cases ax
      · have := hasNum_unique hq' ⟨_, rfl, hq⟩
        subst this
        rw [h, hcv, mul_one]
        have h2 : (originAt n).absMode = true := rfl
        have h3 : (originAt n).loc = (originAt n).pos := rfl
        rw [h2, h3, round10_grid (by exact_mod_cast Grid.int 10)]
        norm_num [V4.get]
      all_goals
        obtain ⟨t, ht, _⟩ := hq'
        exact absurd ht (by change List.lookup _ _ ≠ _; simp [axisWord, List.lookup])
    · cases ax
      · exact absurd hn (by decide)
      all_goals exact h
  have ho : OrdinaryMove (⟨10, 0, 0, 0⟩ : V4 ℝ) 600 := by
    refine ⟨grd, ⟨.x, by norm_num [V4.get]⟩, fun ax => ?_, fun ax hax => ?_, by norm_num⟩
    · cases ax <;> norm_num [V4.get]
    · cases ax <;> simp only [V4.get] at hax ⊢
      · norm_num
      all_goals exact absurd rfl hax
  have hr : roundToSteps Cfg.default (⟨10, 0, 0, 0⟩ : V4 ℝ) = ⟨10, 0, 0, 0⟩ := by
    have := rts_vec (x := 10) (y := 0) (z := 0) 1000 0 0 (by norm_num) (by norm_num) (by norm_num)
    exact this
  have hcd : checkDelta Cfg.default (originAt n).pos ⟨10, 0, 0, 0⟩ = .ok () := by
    have := area_default (m := n) (n := 0) (l := 0) (m' := 1000) (n' := 0) (l' := 0) (by omega) (by omega)
      (by omega)
    norm_num at this
    exact this
  obtain ⟨lg, -, hm⟩ := linear_moves henv (v := 600) (s := originAt n) hr ho hcd
  rcases doCommand_cases (c := Cfg.default) (env := env) ⟨[('X', "10".toList)]⟩ (originAt n) with
    ⟨e, _, h2 | h2 | h2⟩ | ⟨d, v, r, h2, h3, _, ⟨h4, _⟩ | ⟨_, ⟨a', s', h5, h6⟩ | ⟨e, s', h5, h6⟩⟩⟩
  · exact absurd (readDelta_error h2).2 hnb
  · rw [hF] at h2; cases h2
  · exact absurd (radius_error h2).2 hnb
  · rw [hF] at h3; cases h3; rw [hmin] at h4; cases h4
  all_goals
    rw [hF] at h3; cases h3
    cases hd d h2
    have hx : execCmd Cfg.default env (lineCmd ⟨[('X', "10".toList)]⟩) ⟨[('X', "10".toList)]⟩ ⟨10, 0, 0, 0⟩ r
        600 (originAt n) = (.ok none, { originAt n with
          pos := Coord.add (originAt n).pos ⟨10, 0, 0, 0⟩, trace := .move (.linear lg) :: (originAt n).trace }) := by
      have : lineCmd ⟨[('X', "10".toList)]⟩ = .g1 := by decide
      rw [this]
      exact M.bind_ok (f := fun _ => (pure none : M ℝ (Option (Answer ℝ)))) hm
    rw [hx] at h5; cases h5
  refine ⟨_, by unfold doLine; rw [x10_parse]; simp only [h6]; rfl, ?_⟩
  simp

/-- The hypotheses of `C104_origin` are met by the line `X10` in absolute mode on the default machine, with the origin
of the machine and with one that is 50 mm away, and it does make a move. -/
example [PyText] (henv : ∀ tr, env.move tr = none) :
    NoMachineOrigin ["X10".toList] ∧
    originAt 5000 = { originAt 0 with
      pos := (originAt 5000).pos, loc := (originAt 5000).loc, trace := (originAt 5000).trace } ∧
    (∀ n, Decimal10 (originAt n).pos ∧ Decimal10 (originAt n).loc) ∧
    (∀ ax, (originAt 5000).pos.get ax - (originAt 5000).loc.get ax =
      (originAt 0).pos.get ax - (originAt 0).loc.get ax) ∧
    AllAccepted (runLines Cfg.default env ["X10".toList] (originAt 0)).1 ∧
    AllAccepted (runLines Cfg.default env ["X10".toList] (originAt 5000)).1 ∧
    (runLines Cfg.default env ["X10".toList] (originAt 0)).2.trace ≠ (originAt 0).trace := by
  obtain ⟨s, hs, hs'⟩ := x10_runs_abs henv (n := 0) (by norm_num) (by norm_num)
  obtain ⟨t, ht, -⟩ := x10_runs_abs henv (n := 5000) (by norm_num) (by norm_num)
  refine ⟨?_, rfl, fun n => ?_, fun ax => ?_, ?_, ?_, ?_⟩
  · intro l hl g hg
    simp only [List.mem_cons, List.not_mem_nil, or_false] at hl
    subst hl
    rw [x10_parse] at hg
    cases hg
    rintro ⟨p, hp, h⟩
    simp only [List.mem_cons, List.not_mem_nil, or_false] at hp
    rcases hp with rfl | rfl | rfl | rfl <;> exact absurd h.1 (by decide)
  · have gr := gridV_hundredth n 0 0
    norm_num at gr
    exact ⟨gr, gr⟩
  · exact (sub_self _).trans (sub_self _).symm
  · intro r hr
    simp only [runLines, hs, List.mem_cons, List.not_mem_nil, or_false] at hr
    exact ⟨_, hr⟩
  · intro r hr
    simp only [runLines, ht, List.mem_cons, List.not_mem_nil, or_false] at hr
    exact ⟨_, hr⟩
  · simp only [runLines, hs]
    exact hs'

end PyCNC.Props
