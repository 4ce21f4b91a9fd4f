import Verif.Lemmas.Exec
import Verif.Props.GCode

/-!
# Properties C05, C17–C20, C27: which commands change what

All theorems of this file hold for every arithmetic (`PyNum`), every configuration, every
machine state and every behaviour of the hardware.
-/

namespace PyCNC.Props

open PyCNC Spec

variable {F : Type} [PyNum F] (c : Cfg) (env : Env F)

/-! ## C05 -/

/-- **C05.** A blank line, a line with comments only and a line that starts with `%` have no
effect and no answer. -/
theorem C05_blank_line_no_effect [PyText] (line : List Char) (s : MState F)
    (hb : ∃ t, Strip (line.flatMap PyText.upper) t ∧ (t = [] ∨ t.head? = some '%')) :
    ∃ r, parseLine line = .ok r ∧ doCommand c env r s = (.ok none, s) :=
  ⟨none, (C01_none_exactly_blank line).2 hb, rfl⟩

/-- **C05.** A line that names neither a command nor a coordinate changes at most the feed
rate, calls nothing in the HAL and has no answer. -/
theorem C05_words_only_change_feed (g : GCode) (s : MState F) (hc : NoCommand g)
    (hn : ¬ NamesCoordinate g) :
    (∃ e, doCommand c env (some g) s = (.error e, s)) ∨
    (∃ v, g.get 'F' s.vel (PyNum.ofRat 1) = .ok v ∧
      doCommand c env (some g) s = (.ok none, { s with vel := v })) := by
  rcases doCommand_cases (c := c) (env := env) g s with ⟨e, h, _⟩ |
    ⟨d, v, r, _, hv, _, ⟨_, h⟩ | ⟨_, ⟨a, s', h1, h⟩ | ⟨e, s', h1, h⟩⟩⟩
  · exact .inl ⟨e, h⟩
  · exact .inl ⟨_, h⟩
  · rw [lineCmd_nothing.2 ⟨hc, hn⟩] at h1
    simp only [execCmd, M.pure_run, Prod.mk.injEq, Except.ok.injEq] at h1
    obtain ⟨rfl, rfl⟩ := h1
    exact .inr ⟨v, hv, h⟩
  · rw [lineCmd_nothing.2 ⟨hc, hn⟩] at h1
    simp [execCmd] at h1

/-- The line `F1500 N20` meets the hypotheses. -/
example : NoCommand ⟨[('F', "1500".toList), ('N', "20".toList)]⟩ ∧
    ¬ NamesCoordinate ⟨[('F', "1500".toList), ('N', "20".toList)]⟩ := by
  refine ⟨by unfold NoCommand; decide, ?_⟩
  rintro ⟨k, hk, h⟩
  simp only [List.mem_cons, List.not_mem_nil, or_false] at hk
  rcases hk with rfl | rfl | rfl | rfl <;> exact h (by decide)

/-! ## C17 -/

/-- **C17.** If a command other than `G28` is rejected with `GMachineException`, the machine
state is unchanged and the HAL was only asked to measure temperatures.  (The hypotheses say
that `GMachineException` is never raised by the HAL itself.) -/
theorem C17_rejected_changes_nothing (g : GCode) (s s' : MState F) (msg : String)
    (hmove : ∀ tr m, env.move tr ≠ some (.gmachine m))
    (hwait : ∀ tr m, env.wait tr ≠ some (.gmachine m))
    (h28 : ¬ Is g 'G' "28")
    (h : doCommand c env (some g) s = (.error (.gmachine msg), s')) :
    SameState s s' ∧ ∃ hs : List HeaterId, Calls s s' (hs.map HalCall.measure) := by
  rcases doCommand_cases (c := c) (env := env) g s with ⟨e, h1, _⟩ |
    ⟨d, v, r, _, hv, _, ⟨_, h1⟩ | ⟨_, ⟨a, s2, hx, h1⟩ | ⟨e, s2, hx, h1⟩⟩⟩ <;> rw [h] at h1 <;>
    simp only [Prod.mk.injEq, Except.error.injEq, reduceCtorEq, false_and] at h1
  · rw [h1.2]; exact ⟨rfl, [], rfl⟩
  · rw [h1.2]; exact ⟨rfl, [], rfl⟩
  · obtain ⟨rfl, rfl⟩ := h1
    have hcmd : lineCmd g ≠ .g28 := by
      intro h'
      rcases lineCmd_is h' (by decide) (by decide) with ⟨p, hp, h'⟩ | ⟨h', _⟩
      · simp only [Cmd.words, List.mem_cons, List.not_mem_nil, or_false] at hp
        subst hp; exact h28 h'
      · cases h'
    rcases execCmd_error hcmd hx with h' | ⟨_, hs, h'⟩ | ⟨h', _⟩ | ⟨tr, h', _⟩ | ⟨⟨tr, h'⟩, _⟩
    · rw [h']; exact ⟨rfl, [], rfl⟩
    · rw [h']; exact ⟨rfl, hs, rfl⟩
    · cases h'
    · exact absurd h' (hwait _ _)
    · exact absurd h' (hmove _ _)

/-- **C17.** A failing `G28` changes nothing but the position. -/
theorem C17_failed_homing_changes_only_position (g : GCode) (s s' : MState F) (e : PyErr)
    (h28 : Is g 'G' "28") (h : doCommand c env (some g) s = (.error e, s')) :
    s' = { s with pos := s'.pos, trace := s'.trace } := by
  have hc : lineCmd g = .g28 := is_lineCmd ⟨_, List.mem_singleton_self _, h28⟩
  rcases doCommand_cases (c := c) (env := env) g s with ⟨e, h1, _⟩ |
    ⟨d, v, r, _, hv, _, ⟨_, h1⟩ | ⟨_, ⟨a, s2, hx, h1⟩ | ⟨e, s2, hx, h1⟩⟩⟩ <;> rw [h] at h1 <;>
    simp only [Prod.mk.injEq, Except.error.injEq, reduceCtorEq, false_and] at h1
  · rw [h1.2]
  · rw [h1.2]
  · obtain ⟨rfl, rfl⟩ := h1
    rw [hc] at hx
    have key : M.Pres (fun t => t = { s with pos := t.pos, trace := t.trace })
        (execCmd c env .g28 g d r v) := by
      refine M.Pres.bind (home_pres ?_ ?_ ?_ ?_) fun _ => M.Pres.pure _
      · intro t p ht; rw [ht]
      · intro g t ht; rw [ht]
      · intro t ht; rw [ht]
      · intro x y z t ht; rw [ht]
    have := key s rfl
    rw [hx] at this
    exact this

/-! ## C18 -/

/-- **C18.** After a successful command the feed is the F word of the line, or the old feed
when there is none, whatever the command. -/
theorem C18_feed_is_modal (g : GCode) (s s' : MState F) (a : Option (Answer F))
    (h : doCommand c env (some g) s = (.ok a, s')) :
    (∀ t q, g.params.lookup 'F' = some t → parseFloat t = some q →
      s'.vel = PyNum.ofRat q *ₚ PyNum.ofRat 1) ∧
    (g.params.lookup 'F' = none → s'.vel = s.vel) := by
  rcases doCommand_cases (c := c) (env := env) g s with ⟨e, h1, _⟩ |
    ⟨d, v, r, _, hv, _, ⟨_, h1⟩ | ⟨_, ⟨a, s2, hx, h1⟩ | ⟨e, s2, hx, h1⟩⟩⟩ <;> rw [h] at h1 <;>
    simp only [Prod.mk.injEq, reduceCtorEq, false_and] at h1
  rw [h1.2]
  constructor
  · intro t q ht hq
    rw [GCode.get, GCode.lookup, ht] at hv
    simp only [hq, Except.ok.injEq] at hv
    exact hv.symm
  · intro hf
    rw [GCode.get, GCode.lookup, hf] at hv
    simp only [Except.ok.injEq] at hv
    exact hv.symm

/-- **C18.** A failing command never changes the feed. -/
theorem C18_failure_keeps_feed (g : GCode) (s s' : MState F) (e : PyErr)
    (h : doCommand c env (some g) s = (.error e, s')) : s'.vel = s.vel := by
  rcases doCommand_cases (c := c) (env := env) g s with ⟨e, h1, _⟩ |
    ⟨d, v, r, _, hv, _, ⟨_, h1⟩ | ⟨_, ⟨a, s2, hx, h1⟩ | ⟨e, s2, hx, h1⟩⟩⟩ <;> rw [h] at h1 <;>
    simp only [Prod.mk.injEq, Except.error.injEq, reduceCtorEq, false_and] at h1
  · rw [h1.2]
  · rw [h1.2]
  · obtain ⟨rfl, rfl⟩ := h1
    by_cases hf : lineCmd g = .finish
    · rw [hf] at hx
      simp [execCmd, reset] at hx
    · have key : M.Pres (fun t => t.vel = s.vel) (execCmd c env (lineCmd g) g d r v) :=
        execCmd_pres (fun _ _ _ h => h) (fun _ _ h => h) (fun _ _ _ h => h)
          (fun h _ _ _ _ hs => by cases h <;> exact hs) (fun _ _ _ h => h) (fun _ _ _ h => h)
          (fun _ _ _ h => h) (fun _ _ _ h => h) (fun _ _ _ h => h) (fun h => absurd h hf)
      have := key s rfl
      rw [hx] at this
      exact this

/-- **C18.** A feed below the minimum is rejected whatever the command, without effect. -/
theorem C18_low_feed_rejected (g : GCode) (s : MState F) (t : List Char) (q : Rat)
    (ht : g.params.lookup 'F' = some t) (hq : parseFloat t = some q)
    (hlow : (PyNum.ofRat q *ₚ PyNum.ofRat 1 <ₚ (PyNum.ofRat c.minVel : F)) = true) :
    ∃ e, doCommand c env (some g) s = (.error e, s) ∧
      (e = .gmachine "feed speed too low" ∨ e = .value) := by
  have hv : g.get 'F' s.vel (PyNum.ofRat 1) = .ok (PyNum.ofRat q *ₚ PyNum.ofRat 1) := by
    rw [GCode.get, GCode.lookup, ht]
    simp only [hq]
  rcases doCommand_cases (c := c) (env := env) g s with ⟨e, h1, h2⟩ |
    ⟨d, v, r, _, hv', _, ⟨_, h1⟩ | ⟨hl, _⟩⟩
  · refine ⟨e, h1, .inr ?_⟩
    exact parse_error_value (h2.elim .inl fun h => h.elim (fun h => by rw [hv] at h; cases h) .inr)
  · exact ⟨_, h1, .inl rfl⟩
  · rw [hv] at hv'
    cases hv'
    rw [hlow] at hl
    cases hl

/-! ## C19 -/

/-- **C19.** Each part of the modal state is changed only by its own commands, whether the
command succeeds or fails. -/
theorem C19_only_own_commands (g : GCode) (s s' : MState F) (r : Except PyErr (Option (Answer F)))
    (h : doCommand c env (some g) s = (r, s')) :
    (s'.plane ≠ s.plane →
      IsOneOf g [('G', "17"), ('G', "18"), ('G', "19"), ('M', "2"), ('M', "30")]) ∧
    (s'.conv ≠ s.conv → IsOneOf g [('G', "20"), ('G', "21"), ('M', "2"), ('M', "30")]) ∧
    (s'.absMode ≠ s.absMode → IsOneOf g [('G', "90"), ('G', "91"), ('M', "2"), ('M', "30")]) ∧
    (s'.loc ≠ s.loc → IsOneOf g [('G', "53"), ('G', "92"), ('M', "2"), ('M', "30")]) ∧
    (s'.pos ≠ s.pos →
      IsOneOf g [('G', "0"), ('G', "2"), ('G', "3"), ('G', "28")] ∨ IsFeedMove g) ∧
    (s'.spindle ≠ s.spindle → IsOneOf g [('M', "3"), ('M', "2"), ('M', "30")]) ∧
    (s'.fan ≠ s.fan → IsOneOf g [('M', "104"), ('M', "109"), ('M', "106"), ('M', "107")]) ∧
    (s'.heatE ≠ s.heatE → IsOneOf g [('M', "104"), ('M', "109")]) ∧
    (s'.heatB ≠ s.heatB → IsOneOf g [('M', "140"), ('M', "190")]) := by
  have hs' : s' = (doCommand c env (some g) s).2 := by rw [h]
  rw [hs']
  refine ⟨?_, ?_, ?_, ?_, ?_, ?_, ?_, ?_, ?_⟩ <;> intro hne <;> by_contra hno <;> apply hne
  · refine doCommand_pres (P := fun t => t.plane = s.plane) (fun _ _ h => h) (fun _ _ _ =>
      execCmd_pres (fun _ _ _ h => h) (fun _ _ h => h) (fun _ _ _ h => h)
        (fun h _ _ _ _ hs => by cases h <;> exact hs) ?_ (fun _ _ _ h => h)
        (fun _ _ _ h => h) (fun _ _ _ h => h) (fun _ _ _ h => h) ?_) s rfl
    · rintro (h | h | h) <;> exact absurd (lineCmd_mem h) hno
    · intro h; exact absurd (lineCmd_mem h) hno
  · refine doCommand_pres (P := fun t => t.conv = s.conv) (fun _ _ h => h) (fun _ _ _ =>
      execCmd_pres (fun _ _ _ h => h) (fun _ _ h => h) (fun _ _ _ h => h)
        (fun h _ _ _ _ hs => by cases h <;> exact hs) (fun _ _ _ h => h) ?_
        (fun _ _ _ h => h) (fun _ _ _ h => h) (fun _ _ _ h => h) ?_) s rfl
    · rintro (h | h) <;> exact absurd (lineCmd_mem h) hno
    · intro h; exact absurd (lineCmd_mem h) hno
  · refine doCommand_pres (P := fun t => t.absMode = s.absMode) (fun _ _ h => h) (fun _ _ _ =>
      execCmd_pres (fun _ _ _ h => h) (fun _ _ h => h) (fun _ _ _ h => h)
        (fun h _ _ _ _ hs => by cases h <;> exact hs) (fun _ _ _ h => h) (fun _ _ _ h => h)
        ?_ (fun _ _ _ h => h) (fun _ _ _ h => h) ?_) s rfl
    · rintro (h | h) <;> exact absurd (lineCmd_mem h) hno
    · intro h; exact absurd (lineCmd_mem h) hno
  · refine doCommand_pres (P := fun t => t.loc = s.loc) (fun _ _ h => h) (fun _ _ _ =>
      execCmd_pres (fun _ _ _ h => h) (fun _ _ h => h) (fun _ _ _ h => h)
        (fun h _ _ _ _ hs => by cases h <;> exact hs) (fun _ _ _ h => h) (fun _ _ _ h => h)
        (fun _ _ _ h => h) ?_ (fun _ _ _ h => h) ?_) s rfl
    · rintro (h | h) <;> exact absurd (lineCmd_mem h) hno
    · intro h; exact absurd (lineCmd_mem h) hno
  · refine doCommand_pres (P := fun t => t.pos = s.pos) (fun _ _ h => h) (fun _ _ _ =>
      execCmd_pres ?_ (fun _ _ h => h) (fun _ _ _ h => h)
        (fun h _ _ _ _ hs => by cases h <;> exact hs) (fun _ _ _ h => h) (fun _ _ _ h => h)
        (fun _ _ _ h => h) (fun _ _ _ h => h) (fun _ _ _ h => h) ?_) s rfl
    · rintro (h | h | h | h | h)
      · exact absurd (.inl (lineCmd_mem h)) hno
      · exact absurd (.inr (lineCmd_g1.1 h)) hno
      · exact absurd (.inl (lineCmd_mem h)) hno
      · exact absurd (.inl (lineCmd_mem h)) hno
      · exact absurd (.inl (lineCmd_mem h)) hno
    · intro _ t ht; exact ht
  · refine doCommand_pres (P := fun t => t.spindle = s.spindle) (fun _ _ h => h) (fun _ _ _ =>
      execCmd_pres (fun _ _ _ h => h) (fun _ _ h => h) (fun _ _ _ h => h)
        (fun h _ _ _ _ hs => by cases h <;> exact hs) (fun _ _ _ h => h) (fun _ _ _ h => h)
        (fun _ _ _ h => h) (fun _ _ _ h => h) ?_ ?_) s rfl
    · intro h; exact absurd (lineCmd_mem h) hno
    · intro h; exact absurd (lineCmd_mem h) hno
  · refine doCommand_pres (P := fun t => t.fan = s.fan) (fun _ _ h => h) (fun _ _ _ =>
      execCmd_pres (fun _ _ _ h => h) (fun _ _ h => h) ?_
        (fun h _ _ _ _ hs => by cases h <;> exact hs) (fun _ _ _ h => h) (fun _ _ _ h => h)
        (fun _ _ _ h => h) (fun _ _ _ h => h) (fun _ _ _ h => h) ?_) s rfl
    · rintro (⟨w, h⟩ | h | h)
      · cases w <;> exact absurd (lineCmd_mem h) hno
      · exact absurd (lineCmd_mem h) hno
      · exact absurd (lineCmd_mem h) hno
    · intro _ t ht; exact ht
  · refine doCommand_pres (P := fun t => t.heatE = s.heatE) (fun _ _ h => h) (fun _ _ _ =>
      execCmd_pres (fun _ _ _ h => h) (fun _ _ h => h) (fun _ _ _ h => h)
        ?_ (fun _ _ _ h => h) (fun _ _ _ h => h)
        (fun _ _ _ h => h) (fun _ _ _ h => h) (fun _ _ _ h => h) ?_) s rfl
    · intro h w hh
      cases h
      · cases w <;> exact absurd (lineCmd_mem hh) hno
      · exact fun _ _ h => h
    · intro _ t ht; exact ht
  · refine doCommand_pres (P := fun t => t.heatB = s.heatB) (fun _ _ h => h) (fun _ _ _ =>
      execCmd_pres (fun _ _ _ h => h) (fun _ _ h => h) (fun _ _ _ h => h)
        ?_ (fun _ _ _ h => h) (fun _ _ _ h => h)
        (fun _ _ _ h => h) (fun _ _ _ h => h) (fun _ _ _ h => h) ?_) s rfl
    · intro h w hh
      cases h
      · exact fun _ _ h => h
      · cases w <;> exact absurd (lineCmd_mem hh) hno
    · intro _ t ht; exact ht

/-- **C19.** What the mode commands do. -/
theorem C19_mode_commands (g : GCode) (s s' : MState F) (a : Option (Answer F))
    (h : doCommand c env (some g) s = (.ok a, s')) :
    (Is g 'G' "17" → s' = { s with plane := .xy, vel := s'.vel }) ∧
    (Is g 'G' "18" → s' = { s with plane := .zx, vel := s'.vel }) ∧
    (Is g 'G' "19" → s' = { s with plane := .yz, vel := s'.vel }) ∧
    (Is g 'G' "20" → s' = { s with conv := PyNum.ofRat 25.4, vel := s'.vel }) ∧
    (Is g 'G' "21" → s' = { s with conv := PyNum.ofRat 1, vel := s'.vel }) ∧
    (Is g 'G' "90" → s' = { s with absMode := true, vel := s'.vel }) ∧
    (Is g 'G' "91" → s' = { s with absMode := false, vel := s'.vel }) ∧
    (Is g 'G' "53" → s' = { s with loc := Coord.zero, vel := s'.vel }) := by
  refine ⟨?_, ?_, ?_, ?_, ?_, ?_, ?_, ?_⟩ <;> intro hi
  · obtain ⟨d, r, v, s2, hx, rfl⟩ := ok_exec (cmd := .g17) ⟨_, List.mem_singleton_self _, hi⟩ h
    cases hx; rfl
  · obtain ⟨d, r, v, s2, hx, rfl⟩ := ok_exec (cmd := .g18) ⟨_, List.mem_singleton_self _, hi⟩ h
    cases hx; rfl
  · obtain ⟨d, r, v, s2, hx, rfl⟩ := ok_exec (cmd := .g19) ⟨_, List.mem_singleton_self _, hi⟩ h
    cases hx; rfl
  · obtain ⟨d, r, v, s2, hx, rfl⟩ := ok_exec (cmd := .g20) ⟨_, List.mem_singleton_self _, hi⟩ h
    cases hx; rfl
  · obtain ⟨d, r, v, s2, hx, rfl⟩ := ok_exec (cmd := .g21) ⟨_, List.mem_singleton_self _, hi⟩ h
    cases hx; rfl
  · obtain ⟨d, r, v, s2, hx, rfl⟩ := ok_exec (cmd := .g90) ⟨_, List.mem_singleton_self _, hi⟩ h
    cases hx; rfl
  · obtain ⟨d, r, v, s2, hx, rfl⟩ := ok_exec (cmd := .g91) ⟨_, List.mem_singleton_self _, hi⟩ h
    cases hx; rfl
  · obtain ⟨d, r, v, s2, hx, rfl⟩ := ok_exec (cmd := .g53) ⟨_, List.mem_singleton_self _, hi⟩ h
    cases hx; rfl

/-- **C19.** `M2` and `M30` restore the default plane, units, mode, offset and spindle speed;
they do not touch the position, the fan, the heaters and the HAL. -/
theorem C19_program_end (g : GCode) (s s' : MState F) (a : Option (Answer F))
    (hg : IsOneOf g [('M', "2"), ('M', "30")])
    (h : doCommand c env (some g) s = (.ok a, s')) :
    s' = { s with plane := .xy, conv := PyNum.ofRat 1, absMode := true, loc := Coord.zero,
                  spindle := PyNum.ofRat 1000, vel := s'.vel } := by
  obtain ⟨d, r, v, s2, hx, rfl⟩ := ok_exec (cmd := .finish) hg h
  cases hx; rfl

/-! ## C20 -/

/-- **C20.** A command word outside the known list is rejected without any effect. -/
theorem C20_unknown_no_effect (g : GCode) (s : MState F) (hc : ¬ NoCommand g)
    (hk : ¬ IsOneOf g knownCommands) : ∃ e, doCommand c env (some g) s = (.error e, s) := by
  rcases doCommand_cases (c := c) (env := env) g s with ⟨e, h1, _⟩ |
    ⟨d, v, r, _, hv, _, ⟨_, h1⟩ | ⟨_, ⟨a, s2, hx, h1⟩ | ⟨e, s2, hx, h1⟩⟩⟩
  · exact ⟨e, h1⟩
  · exact ⟨_, h1⟩
  · rw [lineCmd_unknown hc hk] at hx
    simp [execCmd] at hx
  · rw [lineCmd_unknown hc hk] at hx
    cases hx
    exact ⟨_, h1⟩

/-- **C20.** The exception is "unknown command" if all numbers of the line are well formed and
the feed is not below the minimum. -/
theorem C20_unknown_message (g : GCode) (s s' : MState F) (e : PyErr) (hc : ¬ NoCommand g)
    (hk : ¬ IsOneOf g knownCommands) (hn : NumbersOk g)
    (hf : ∀ v, g.get 'F' s.vel (PyNum.ofRat 1) = .ok v → (v <ₚ PyNum.ofRat c.minVel) = false)
    (h : doCommand c env (some g) s = (.error e, s')) : e = .gmachine "unknown command" := by
  have nb : ¬ BadWord g := by
    rintro ⟨k, t, h1, h2⟩
    exact hn (k, t) (mem_of_lookup h1) h2
  rcases doCommand_cases (c := c) (env := env) g s with ⟨e, h1, h2⟩ |
    ⟨d, v, r, _, hv, _, ⟨hl, h1⟩ | ⟨_, ⟨a, s2, hx, h1⟩ | ⟨e, s2, hx, h1⟩⟩⟩ <;> rw [h] at h1 <;>
    simp only [Prod.mk.injEq, Except.error.injEq, reduceCtorEq, false_and] at h1
  · rcases h2 with h2 | h2 | h2
    · exact absurd (readDelta_error h2).2 nb
    · exact absurd ⟨_, (get_error h2).2⟩ nb
    · exact absurd (radius_error h2).2 nb
  · rw [hf v hv] at hl; cases hl
  · rw [lineCmd_unknown hc hk] at hx
    cases hx
    exact h1.1

/-- `G5 X1`, `G01` and `M6` are not known. -/
example : ¬ IsOneOf ⟨[('G', "5".toList), ('X', "1".toList)]⟩ knownCommands ∧
    ¬ IsOneOf ⟨[('G', "01".toList)]⟩ knownCommands ∧
    ¬ IsOneOf ⟨[('M', "6".toList)]⟩ knownCommands := by
  unfold IsOneOf Is
  decide +kernel

/-! ## C27 -/

/-- **C27.** `M105` asks for the two temperatures, answers them and changes nothing but the
feed. -/
theorem C27_temperatures (g : GCode) (s s' : MState F) (a : Option (Answer F))
    (hg : Is g 'M' "105") (h : doCommand c env (some g) s = (.ok a, s')) :
    s' = { s with vel := s'.vel, trace := .measure .bed :: .measure .extruder :: s.trace } ∧
    a = some (.temps (env.measure (.measure .extruder :: s.trace))
      (env.measure (.measure .bed :: .measure .extruder :: s.trace))) := by
  obtain ⟨d, r, v, s2, hx, rfl⟩ := ok_exec (cmd := .m105) ⟨_, List.mem_singleton_self _, hg⟩ h
  simp only [execCmd, bind_measure] at hx
  split at hx
  · simp at hx
  · simp only [M.pure_run, Prod.mk.injEq, Except.ok.injEq] at hx
    obtain ⟨rfl, rfl⟩ := hx
    exact ⟨rfl, rfl⟩

/-- **C27.** `M114` waits for the motors, answers the position and changes nothing but the
feed. -/
theorem C27_position (g : GCode) (s s' : MState F) (a : Option (Answer F))
    (hg : Is g 'M' "114") (h : doCommand c env (some g) s = (.ok a, s')) :
    s' = { s with vel := s'.vel, trace := .join :: .join :: s.trace } ∧
    a = some (.position s.pos) := by
  obtain ⟨d, r, v, s2, hx, rfl⟩ := ok_exec (cmd := .m114) ⟨_, List.mem_singleton_self _, hg⟩ h
  cases hx
  exact ⟨rfl, rfl⟩

/-- **C27.** A successful `G4` has a P word that is not negative, waits for the motors, sleeps
that long and changes nothing but the feed. -/
theorem C27_dwell (g : GCode) (s s' : MState F) (a : Option (Answer F))
    (hg : Is g 'G' "4") (h : doCommand c env (some g) s = (.ok a, s')) :
    ∃ t q, g.params.lookup 'P' = some t ∧ parseFloat t = some q ∧
      (PyNum.ofRat q *ₚ PyNum.ofRat 1 <ₚ (zeroF : F)) = false ∧ a = none ∧
      s' = { s with vel := s'.vel,
                    trace := .sleep (PyNum.ofRat q *ₚ PyNum.ofRat 1) :: .join :: s.trace } := by
  obtain ⟨d, r, v, s2, hx, rfl⟩ := ok_exec (cmd := .g4) ⟨_, List.mem_singleton_self _, hg⟩ h
  simp only [execCmd] at hx
  cases hP : g.has 'P'
  · simp [hP] at hx
  · simp only [hP, Bool.not_true, Bool.false_eq_true, if_false] at hx
    obtain ⟨p, hp, hx⟩ := lift_ok hx
    unfold GCode.has GCode.lookup at hP
    obtain ⟨t, ht⟩ := Option.isSome_iff_exists.1 hP
    rw [GCode.get, GCode.lookup, ht] at hp
    dsimp only at hp
    rcases hq : parseFloat t with _ | q
    · rw [hq] at hp; cases hp
    · rw [hq] at hp
      simp only [Except.ok.injEq] at hp
      subst hp
      cases hl : PyNum.ofRat q *ₚ PyNum.ofRat 1 <ₚ (zeroF : F)
      · rw [hl] at hx
        simp only [Bool.false_eq_true, if_false, M.bind_emit, M.pure_run, Prod.mk.injEq,
          Except.ok.injEq] at hx
        obtain ⟨rfl, rfl⟩ := hx
        exact ⟨t, q, ht, hq, hl, rfl, rfl⟩
      · rw [hl] at hx
        simp at hx

/-- **C27.** `G4` without P or with a negative P is rejected without effect. -/
theorem C27_dwell_rejected (g : GCode) (s : MState F) (hg : Is g 'G' "4")
    (hp : ∀ t q, g.params.lookup 'P' = some t → parseFloat t = some q →
      (PyNum.ofRat q *ₚ PyNum.ofRat 1 <ₚ (zeroF : F)) = true) :
    ∃ e, doCommand c env (some g) s = (.error e, s) := by
  rcases hr : doCommand c env (some g) s with ⟨e | a, s'⟩
  · have hcmd : lineCmd g = .g4 := is_lineCmd ⟨_, List.mem_singleton_self _, hg⟩
    rcases doCommand_cases (c := c) (env := env) g s with ⟨e, h1, h2⟩ |
      ⟨d, v, r, _, hv, _, ⟨hl, h1⟩ | ⟨_, ⟨a, s2, hx, h1⟩ | ⟨e, s2, hx, h1⟩⟩⟩ <;> rw [hr] at h1 <;>
      simp only [Prod.mk.injEq, Except.error.injEq, reduceCtorEq, false_and] at h1
    · rw [h1.2]; exact ⟨_, rfl⟩
    · rw [h1.2]; exact ⟨_, rfl⟩
    · rw [hcmd] at hx
      rw [h1.2]
      simp only [execCmd] at hx
      split at hx
      · cases hx; exact ⟨_, rfl⟩
      · rcases lift_error hx with ⟨_, h⟩ | ⟨p, _, h⟩
        · rw [h]; exact ⟨_, rfl⟩
        · split at h
          · cases h; exact ⟨_, rfl⟩
          · simp at h
  · obtain ⟨t, q, ht, hq, hf, _⟩ := C27_dwell c env g s s' a hg hr
    rw [hp t q ht hq] at hf
    cases hf

/-! ## Examples: the hypotheses of the theorems above can be met -/

section examples

variable (s : MState F) (hv : (s.vel <ₚ PyNum.ofRat c.minVel) = false)
include hv

/-- `G19` succeeds in every state with an allowed feed. -/
example : ∃ s', doCommand c env (some ⟨[('G', "19".toList)]⟩) s = (.ok none, s') := by
  obtain ⟨d, r, h⟩ := plain_run (c := c) (env := env) (g := ⟨[('G', "19".toList)]⟩) (s := s)
    (by decide) hv
  rw [h]
  exact ⟨_, rfl⟩

/-- `M30` succeeds. -/
example : ∃ s', doCommand c env (some ⟨[('M', "30".toList)]⟩) s = (.ok none, s') ∧
    IsOneOf ⟨[('M', "30".toList)]⟩ [('M', "2"), ('M', "30")] := by
  obtain ⟨d, r, h⟩ := plain_run (c := c) (env := env) (g := ⟨[('M', "30".toList)]⟩) (s := s)
    (by decide) hv
  rw [h]
  exact ⟨_, rfl, by unfold IsOneOf Is; decide⟩

/-- `M114` succeeds. -/
example : ∃ a s', doCommand c env (some ⟨[('M', "114".toList)]⟩) s = (.ok a, s') := by
  obtain ⟨d, r, h⟩ := plain_run (c := c) (env := env) (g := ⟨[('M', "114".toList)]⟩) (s := s)
    (by decide) hv
  rw [h]
  exact ⟨_, _, rfl⟩

/-- `G4` without P and `M6` are rejected (C17, C20, C27). -/
example : doCommand c env (some ⟨[('G', "4".toList)]⟩) s =
      (.error (.gmachine "P is not specified"), s) ∧
    doCommand c env (some ⟨[('M', "6".toList)]⟩) s =
      (.error (.gmachine "unknown command"), s) := by
  constructor
  · obtain ⟨d, r, h⟩ := plain_run (c := c) (env := env) (g := ⟨[('G', "4".toList)]⟩) (s := s)
      (by decide) hv
    rw [h]
    rfl
  · obtain ⟨d, r, h⟩ := plain_run (c := c) (env := env) (g := ⟨[('M', "6".toList)]⟩) (s := s)
      (by decide) hv
    rw [h]
    rfl

end examples

end PyCNC.Props
