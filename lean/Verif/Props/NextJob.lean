import Verif.Lemmas.Blind
import Verif.Props.Modal
import Verif.Props.HomeSpeed

/-!
# Property C102: what a program leaves behind for the next one

The positive part is for every arithmetic (`PyNum`), so also for binary64; the witness is exact.
-/

namespace PyCNC.Props

open PyCNC Spec

section generic

variable {F : Type} [PyNum F] {c : Cfg} {env : Env F}

/-- The machine just started, with its head, its fan and its heaters as they are in `s`. -/
def freshAt (c : Cfg) (s : MState F) : MState F :=
  { MState.init c with pos := s.pos, fan := s.fan, heatE := s.heatE, heatB := s.heatB, trace := s.trace }

/-- The replies to the lines, one after the other, and the state after them. -/
def runLines [PyText] (c : Cfg) (env : Env F) :
    List (List Char) → MState F → List (Except PyErr (Reply F)) × MState F
  | [], s => ([], s)
  | l :: ls, s => ((doLine c env l s).1 :: (runLines c env ls (doLine c env l s).2).1,
      (runLines c env ls (doLine c env l s).2).2)

/-- The line has a feed. -/
def HasFeed (g : GCode) : Prop := g.params.lookup 'F' ≠ none

/-- The line is a move with the programmed feed: `G1`, `G2`, `G3`, or coordinates alone. -/
def FeedMove (g : GCode) : Prop := IsOneOf g [('G', "2"), ('G', "3")] ∨ IsFeedMove g

/-- Equal but for the stored feed, which both times is not too low. -/
structure ButFeed (c : Cfg) (s t : MState F) : Prop where
  eq : t = { s with vel := t.vel }
  left : (s.vel <ₚ PyNum.ofRat c.minVel) = false
  right : (t.vel <ₚ PyNum.ofRat c.minVel) = false

theorem execCmd_feed {cmd : Cmd} (h1 : cmd ≠ .g1) (h2 : cmd ≠ .g2) (h3 : cmd ≠ .g3) (g : GCode)
    (d r : V4 F) (v w : F) : execCmd c env cmd g d r v = execCmd c env cmd g d r w := by
  cases cmd <;> first | rfl | contradiction

theorem doCommand_butFeed {s t : MState F} (h : ButFeed c s t) {g : GCode}
    (hg : HasFeed g ∨ (lineCmd g ≠ .g1 ∧ lineCmd g ≠ .g2 ∧ lineCmd g ≠ .g3)) :
    (doCommand c env (some g) t).1 = (doCommand c env (some g) s).1 ∧
    ButFeed c (doCommand c env (some g) s).2 (doCommand c env (some g) t).2 ∧
    (HasFeed g → ∀ a, (doCommand c env (some g) s).1 = .ok a →
      (doCommand c env (some g) t).2 = (doCommand c env (some g) s).2) := by
  obtain ⟨he, hl, hr⟩ := h
  obtain ⟨w, rfl⟩ : ∃ w, t = { s with vel := w } := ⟨_, he⟩
  simp only at hr
  have hd : readDelta { s with vel := w } g = readDelta s g := rfl
  have stop : ButFeed c s { s with vel := w } := ⟨rfl, hl, hr⟩
  -- the feeds that the two read
  have hf : (∃ e, g.get 'F' s.vel (PyNum.ofRat 1) = .error e ∧ g.get 'F' w (PyNum.ofRat 1) = .error e) ∨
      ∃ v1 v2, g.get 'F' s.vel (PyNum.ofRat 1) = .ok v1 ∧ g.get 'F' w (PyNum.ofRat 1) = .ok v2 ∧
        (v1 <ₚ PyNum.ofRat c.minVel) = (v2 <ₚ PyNum.ofRat c.minVel) ∧ (HasFeed g → v1 = v2) ∧
        (HasFeed g ∨ (v1 = s.vel ∧ v2 = w)) := by
    unfold GCode.get GCode.lookup
    rcases hk : g.params.lookup 'F' with _ | x
    · refine .inr ⟨_, _, rfl, rfl, by rw [hl, hr], fun h => absurd hk h, .inr ⟨rfl, rfl⟩⟩
    · have hF : HasFeed g := by simp [HasFeed, hk]
      rcases hp : parseFloat x with _ | q
      · exact .inl ⟨.value, by simp [hp], by simp [hp]⟩
      · exact .inr ⟨PyNum.ofRat q *ₚ PyNum.ofRat 1, PyNum.ofRat q *ₚ PyNum.ofRat 1, by simp only [hp],
          by simp only [hp], rfl, fun _ => rfl, .inl hF⟩
  rcases h1 : readDelta s g with e | d
  · have k1 : doCommand c env (some g) s = (.error e, s) := by simp [doCommand, h1]
    have k2 : doCommand c env (some g) { s with vel := w } = (.error e, { s with vel := w }) := by
      simp [doCommand, hd, h1]
    rw [k1, k2]
    exact ⟨rfl, stop, fun _ a h => by cases h⟩
  rcases hf with ⟨e, hf1, hf2⟩ | ⟨v1, v2, hf1, hf2, hlow, hsame, hkeep⟩
  · have k1 : doCommand c env (some g) s = (.error e, s) := by simp [doCommand, h1, hf1]
    have k2 : doCommand c env (some g) { s with vel := w } = (.error e, { s with vel := w }) := by
      simp [doCommand, hd, h1, hf2]
    rw [k1, k2]
    exact ⟨rfl, stop, fun _ a h => by cases h⟩
  rcases h3 : g.radius Coord.zero s.conv with e | r
  · have k1 : doCommand c env (some g) s = (.error e, s) := by simp [doCommand, h1, hf1, h3]
    have k2 : doCommand c env (some g) { s with vel := w } = (.error e, { s with vel := w }) := by
      simp [doCommand, hd, h1, hf2, h3]
    rw [k1, k2]
    exact ⟨rfl, stop, fun _ a h => by cases h⟩
  rcases h4 : v1 <ₚ PyNum.ofRat c.minVel with _ | _
  · have h4' := hlow.symm.trans h4
    -- the branch of the command
    have hx : execCmd c env (lineCmd g) g d r v2 = execCmd c env (lineCmd g) g d r v1 := by
      rcases hg with hg | ⟨g1, g2, g3⟩
      · rw [hsame hg]
      · exact execCmd_feed g1 g2 g3 g d r v2 v1
    have k1 : doCommand c env (some g) s = match execCmd c env (lineCmd g) g d r v1 s with
        | (.ok a, s') => (.ok a, { s' with vel := v1 })
        | (.error e, s') => (.error e, s') := by
      simp only [doCommand, M.bind_get, h1, hf1, h3, h4, M.bind_lift_ok, Bool.false_eq_true, if_false]
      rcases hy : execCmd c env (lineCmd g) g d r v1 s with ⟨e | a, s'⟩
      · exact M.bind_error hy
      · exact M.bind_ok hy
    have k2 : doCommand c env (some g) { s with vel := w } =
        match execCmd c env (lineCmd g) g d r v1 { s with vel := w } with
        | (.ok a, s') => (.ok a, { s' with vel := v2 })
        | (.error e, s') => (.error e, s') := by
      rw [← hx]
      simp only [doCommand, M.bind_get, hd, h1, hf2, h3, h4', M.bind_lift_ok, Bool.false_eq_true, if_false]
      rcases hy : execCmd c env (lineCmd g) g d r v2 { s with vel := w } with ⟨e | a, s'⟩
      · exact M.bind_error hy
      · exact M.bind_ok hy
    by_cases hfin : lineCmd g = .finish
    · rw [k1, k2, hfin]
      refine ⟨rfl, ⟨rfl, h4, h4'⟩, fun hF a _ => ?_⟩
      rw [hsame hF]; rfl
    · have hb := (execCmd_blind (c := c) (env := env) hfin g d r v1).eq s w
      rcases hy : execCmd c env (lineCmd g) g d r v1 s with ⟨e | a, s'⟩
      · rw [k1, k2, hb, hy]
        have hv : s'.vel = s.vel := by
          have := (execCmd_blind (c := c) (env := env) hfin g d r v1).eq s s.vel
          rw [hy] at this
          exact congrArg (fun p => p.2.vel) this
        exact ⟨rfl, ⟨rfl, by rw [hv]; exact hl, hr⟩, fun _ a h => by cases h⟩
      · rw [k1, k2, hb, hy]
        refine ⟨rfl, ⟨rfl, h4, h4'⟩, fun hF a _ => ?_⟩
        rw [hsame hF]
  · have h4' := hlow.symm.trans h4
    have k1 : doCommand c env (some g) s = (.error (.gmachine "feed speed too low"), s) := by
      simp [doCommand, h1, hf1, h3, h4]
    have k2 : doCommand c env (some g) { s with vel := w } =
        (.error (.gmachine "feed speed too low"), { s with vel := w }) := by
      simp [doCommand, hd, h1, hf2, h3, h4']
    rw [k1, k2]
    exact ⟨rfl, stop, fun _ a h => by cases h⟩

theorem feedMove_cmd {g : GCode} (h : ¬ FeedMove g) :
    lineCmd g ≠ .g1 ∧ lineCmd g ≠ .g2 ∧ lineCmd g ≠ .g3 := by
  refine ⟨fun k => h (.inr (lineCmd_g1.1 k)), fun k => h (.inl ?_), fun k => h (.inl ?_)⟩
  · exact lineCmd_mem k (by decide) (by decide) (by decide) (by decide)
  · exact lineCmd_mem k (by decide) (by decide) (by decide) (by decide)

theorem doLine_butFeed [PyText] {s t : MState F} (h : ButFeed c s t) {l : List Char}
    (hl : ∀ g, parseLine l = .ok (some g) → HasFeed g ∨ ¬ FeedMove g) :
    (doLine c env l t).1 = (doLine c env l s).1 ∧
    ButFeed c (doLine c env l s).2 (doLine c env l t).2 ∧
    (∀ g, parseLine l = .ok (some g) → HasFeed g → (∃ a, (doLine c env l s).1 = .ok (.ok a)) →
      (doLine c env l t).2 = (doLine c env l s).2) := by
  rcases hp : parseLine l with e | _ | g
  · simp only [doLine, hp]
    exact ⟨trivial, h, fun g hg => by cases hg⟩
  · have k1 : ∀ s : MState F, doLine c env l s = (.ok (.ok none), s) := fun s => by
      simp only [doLine, hp]; rfl
    rw [k1, k1]
    exact ⟨rfl, h, fun g hg => by cases hg⟩
  · obtain ⟨h1, h2, h3⟩ := doCommand_butFeed (env := env) h (g := g) ((hl g hp).imp_right feedMove_cmd)
    have k : ∀ s : MState F, (doLine c env l s).2 = (doCommand c env (some g) s).2 ∧
        (∀ a, (doLine c env l s).1 = .ok (.ok a) → (doCommand c env (some g) s).1 = .ok a) := fun s => by
      simp only [doLine, hp]
      rcases doCommand c env (some g) s with ⟨e | a, s'⟩
      · refine ⟨rfl, fun a h => ?_⟩
        cases e <;> simp [catchLine] at h
      · refine ⟨rfl, fun a h => ?_⟩
        simpa using h
    refine ⟨?_, by rw [(k s).1, (k t).1]; exact h2, fun g' hg' hF ⟨a, ha⟩ => ?_⟩
    · simp only [doLine, hp]
      rcases hs : doCommand c env (some g) s with ⟨e | a, s'⟩ <;>
        rcases ht : doCommand c env (some g) t with ⟨e' | a', t'⟩ <;> rw [hs, ht] at h1 <;> cases h1 <;> rfl
    · cases hg'
      rw [(k s).1, (k t).1]
      exact h3 hF a ((k s).2 a ha)

theorem runLines_butFeed [PyText] {ls : List (List Char)}
    (hl : ∀ l ∈ ls, ∀ g, parseLine l = .ok (some g) → HasFeed g ∨ ¬ FeedMove g) :
    ∀ {s t : MState F}, ButFeed c s t →
    (runLines c env ls t).1 = (runLines c env ls s).1 ∧
    ButFeed c (runLines c env ls s).2 (runLines c env ls t).2 := by
  induction ls with
  | nil => exact fun h => ⟨rfl, h⟩
  | cons l ls ih =>
    intro s t h
    obtain ⟨h1, h2, -⟩ := doLine_butFeed (env := env) h (hl l (by simp))
    obtain ⟨h3, h4⟩ := ih (fun l hm => hl l (by simp [hm])) h2
    exact ⟨by simp only [runLines]; rw [h1, h3], h4⟩

theorem runLines_append [PyText] (l1 l2 : List (List Char)) (s : MState F) :
    runLines c env (l1 ++ l2) s = ((runLines c env l1 s).1 ++ (runLines c env l2 (runLines c env l1 s).2).1,
      (runLines c env l2 (runLines c env l1 s).2).2) := by
  induction l1 generalizing s with
  | nil => rfl
  | cons l l1 ih =>
    simp only [List.cons_append, runLines, ih]

/-- **C102.** After `M2` or `M30`, the machine is as just started, with its head, fan and heaters where they
are, but for the stored feed.  Hence a program that comes next gets the replies, makes the calls and ends in the
state as on a machine just started, if no line before its first accepted `F` word is a move with feed that has
no `F` word.  Missing: programs that move with feed before they set one (`C102_refuted`). -/
theorem C102_next_partial [PyText] (hmin : ((minMaxVel c : F) <ₚ PyNum.ofRat c.minVel) = false)
    {g : GCode} (hg : IsOneOf g [('M', "2"), ('M', "30")]) {s0 s : MState F} {a : Option (Answer F)}
    (h : doCommand c env (some g) s0 = (.ok a, s)) {pre : List (List Char)}
    (hpre : ∀ l ∈ pre, ∀ g', parseLine l = .ok (some g') → HasFeed g' ∨ ¬ FeedMove g') :
    s = { freshAt c s with vel := s.vel } ∧
    (runLines c env pre s).1 = (runLines c env pre (freshAt c s)).1 ∧
    (runLines c env pre s).2.trace = (runLines c env pre (freshAt c s)).2.trace ∧
    ∀ line g1 rest, parseLine line = .ok (some g1) → HasFeed g1 →
      (∃ b, (doLine c env line (runLines c env pre s).2).1 = .ok (.ok b)) →
      runLines c env (pre ++ line :: rest) s = runLines c env (pre ++ line :: rest) (freshAt c s) := by
  have hs : s = { freshAt c s with vel := s.vel } := by
    have := C19_program_end c env g s0 s a hg h
    rw [this]; rfl
  have hlow : (s.vel <ₚ PyNum.ofRat c.minVel) = false := by
    rcases doCommand_cases (c := c) (env := env) g s0 with ⟨e, h1, _⟩ |
      ⟨d, v, r, _, hv, _, ⟨_, h1⟩ | ⟨h4, ⟨a, s2, hx, h1⟩ | ⟨e, s2, hx, h1⟩⟩⟩ <;> rw [h] at h1 <;> cases h1
    exact h4
  have hb : ButFeed c s (freshAt c s) := by
    refine ⟨?_, hlow, hmin⟩
    generalize freshAt c s = t at hs
    rw [hs]
  obtain ⟨h1, h2⟩ := runLines_butFeed (env := env) hpre hb
  refine ⟨hs, h1.symm, by rw [h2.eq], fun line g1 rest hp hF hok => ?_⟩
  obtain ⟨h3, -, h5⟩ := doLine_butFeed (env := env) h2 (l := line) (fun g' hg' => by
    rw [hp] at hg'; cases hg'; exact .inl hF)
  rw [runLines_append, runLines_append, h1]
  simp only [runLines]
  rw [h3, h5 g1 hp hF hok]

end generic

/-! ### The lines `F100` and `M2` -/

variable [PyRound] {env : Env ℝ}

/-- **C102 is false** of the feed: `M2` resets everything, then the feed from before is stored again.  After
`F100` and `M2` the default machine is as just started, but its feed is 100 instead of 600. -/
theorem C102_refuted [PyText] :
    ∃ s1 s, doLine Cfg.default env "F100".toList (MState.init Cfg.default) = (.ok (.ok none), s1) ∧
      doLine Cfg.default env "M2".toList s1 = (.ok (.ok none), s) ∧
      s = { (MState.init Cfg.default : MState ℝ) with vel := 100 } ∧
      (MState.init Cfg.default : MState ℝ).vel = 600 := by
  have hp1 : parseLine "F100".toList = .ok (some ⟨[('F', "100".toList)]⟩) := by
    refine parse_words (ws := [('F', "100".toList)]) ⟨by decide, ?_, by decide, by decide⟩ (by decide)
    intro w hw
    simp only [List.mem_cons, List.not_mem_nil, or_false] at hw
    subst hw
    exact ⟨by decide, [], _, rfl, .inl rfl, by decide, by decide⟩
  have hp2 : parseLine "M2".toList = .ok (some ⟨[('M', ['2'])]⟩) := by
    refine parse_words (ws := [('M', ['2'])]) ⟨by decide, ?_, by decide, by decide⟩ (by decide)
    intro w hw
    simp only [List.mem_cons, List.not_mem_nil, or_false] at hw
    subst hw
    exact ⟨by decide, [], _, rfl, .inl rfl, by decide, by decide⟩
  have hno : ∀ (k : Char) (t : List Char) (q : ℚ), parseFloat t = some q → ¬ BadWord ⟨[(k, t)]⟩ := by
    rintro k t q hq ⟨k', t', h1, h2⟩
    rw [List.lookup_cons] at h1
    split at h1
    · cases h1; rw [hq] at h2; cases h2
    · cases h1
  have hmin : ((100 : ℝ) <ₚ PyNum.ofRat Cfg.default.minVel) = false := by
    rw [lt_false_iff, ofRat_eq]; norm_num [Cfg.default]
  have run : ∀ (s : MState ℝ) (g : GCode), ¬ BadWord g → g.get 'F' s.vel (PyNum.ofRat 1) = .ok 100 →
      ∀ s', (∀ d r, execCmd Cfg.default env (lineCmd g) g d r 100 s = (.ok none, s')) →
      doCommand Cfg.default env (some g) s = (.ok none, { s' with vel := 100 }) := by
    intro s g hb hf s' hx
    rcases doCommand_cases (c := Cfg.default) (env := env) g s with ⟨e, _, h2 | h2 | h2⟩ |
      ⟨d, v, r, _, h2, _, ⟨h4, _⟩ | ⟨_, ⟨a', s', h5, h6⟩ | ⟨e, s', h5, h6⟩⟩⟩
    · exact absurd (readDelta_error h2).2 hb
    · rw [hf] at h2; cases h2
    · exact absurd (radius_error h2).2 hb
    · rw [hf] at h2; cases h2; rw [hmin] at h4; cases h4
    · rw [hf] at h2; cases h2
      rw [hx] at h5; cases h5; exact h6
    · rw [hf] at h2; cases h2
      rw [hx] at h5; cases h5
  have h1 := run (MState.init Cfg.default) ⟨[('F', "100".toList)]⟩ (hno _ _ 100 (by decide +kernel)) (by
    have hq : parseFloat "100".toList = some 100 := by decide +kernel
    have hk : List.lookup 'F' [('F', "100".toList)] = some "100".toList := by decide
    unfold GCode.get GCode.lookup
    simp only [hk, hq]
    rw [ofRat_eq, ofRat_eq]
    congr 1
    change ((100 : ℚ) : ℝ) * ((1 : ℚ) : ℝ) = 100
    norm_num) (MState.init Cfg.default) (fun d r => by
    have : lineCmd ⟨[('F', "100".toList)]⟩ = .nothing := by decide
    rw [this]; rfl)
  have h2 := run { (MState.init Cfg.default : MState ℝ) with vel := 100 } ⟨[('M', ['2'])]⟩
    (hno _ _ 2 (by decide +kernel)) (by
      have hk : List.lookup 'F' [('M', ['2'])] = none := by decide
      unfold GCode.get GCode.lookup
      simp only [hk]) (MState.init Cfg.default) (fun d r => by
      have : lineCmd ⟨[('M', ['2'])]⟩ = .finish := by decide
      rw [this]; rfl)
  refine ⟨_, _, by unfold doLine; rw [hp1]; simp only [h1]; rfl, by unfold doLine; rw [hp2]; simp only [h2],
    rfl, ?_⟩
  exact plain_init.vel

/-- The hypotheses of `C102_next_partial` are met: `M2` succeeds on the default machine, the feed of a machine just
started is not too low, and the lines `G21` and `G1 X1 F100` are such a program. -/
example : ((minMaxVel Cfg.default : ℝ) <ₚ PyNum.ofRat Cfg.default.minVel) = false ∧
    IsOneOf ⟨[('M', ['2'])]⟩ [('M', "2"), ('M', "30")] ∧
    ¬ FeedMove ⟨[('G', "21".toList)]⟩ ∧
    HasFeed ⟨[('G', ['1']), ('X', ['1']), ('F', "100".toList)]⟩ := by
  refine ⟨?_, ⟨_, List.mem_cons_self, by unfold Is; decide⟩, ?_, by unfold HasFeed; decide⟩
  · have h : (minMaxVel Cfg.default : ℝ) = 600 := plain_init.vel
    rw [lt_false_iff, h, ofRat_eq]; norm_num [Cfg.default]
  · rintro (⟨p, hp, h⟩ | h | h)
    · simp only [List.mem_cons, List.not_mem_nil, or_false] at hp
      rcases hp with rfl | rfl <;> exact absurd h.1 (by decide)
    · exact absurd h.1 (by decide)
    · exact absurd h.1.1 (by decide)

end PyCNC.Props
