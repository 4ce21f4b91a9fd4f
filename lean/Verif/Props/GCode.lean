import Verif.Lemmas.GCode

/-!
# Properties C01, C02, C03: the G-code parser
-/

namespace PyCNC.Props

open PyCNC Spec

/-- **C01.** `parse_line` returns an object exactly for the lines that, upper-cased and
stripped of white space and comments, spell a well formed block; the object holds exactly
the words of the line. -/
theorem C01_accepts_exactly_blocks [PyText] (line : List Char) (g : GCode) :
    parseLine line = .ok (some g) ↔
      ∃ t, Strip (line.flatMap PyText.upper) t ∧ t = wordsText g.params ∧ Block g.params := by
  unfold parseLine
  rw [parseClean_ok]
  constructor
  · rintro ⟨h1, h2⟩
    exact ⟨_, (strip_iff_clean _ _).2 rfl, h1, h2⟩
  · rintro ⟨t, h0, h1, h2⟩
    rw [(strip_iff_clean _ _).1 h0]
    exact ⟨h1, h2⟩

/-- **C01.** `parse_line` returns `None` exactly for blank lines and lines whose first
significant character is `%`. -/
theorem C01_none_exactly_blank [PyText] (line : List Char) :
    parseLine line = .ok none ↔
      ∃ t, Strip (line.flatMap PyText.upper) t ∧ (t = [] ∨ t.head? = some '%') := by
  unfold parseLine
  rw [parseClean_none]
  constructor
  · intro h
    exact ⟨_, (strip_iff_clean _ _).2 rfl, h⟩
  · rintro ⟨t, h0, h⟩
    rw [(strip_iff_clean _ _).1 h0]
    exact h

/-- **C01.** The only exception of `parse_line` is `GCodeException`. -/
theorem C01_error_is_gcode [PyText] (line : List Char) (e : PyErr)
    (h : parseLine line = .error e) : ∃ msg, e = .gcode msg :=
  parseClean_error h

/-- The text left after stripping is unique, so the three theorems above cover every line
by exactly one case. -/
theorem C01_strip_unique [PyText] (s : List Char) : ∃ t, Strip s t ∧ ∀ t', Strip s t' → t' = t :=
  ⟨clean s, (strip_iff_clean _ _).2 rfl, fun _ h => ((strip_iff_clean _ _).1 h).symm⟩

section examples

attribute [local instance] asciiText

/-- A line with lower case, blanks and both kinds of comments is accepted. -/
example : parseLine "g1 X-1.5 (move) y2;end".toList =
    .ok (some ⟨[('G', ['1']), ('X', "-1.5".toList), ('Y', ['2'])]⟩) := by
  have hu : "g1 X-1.5 (move) y2;end".toList.flatMap PyText.upper =
      "G1 X-1.5 (MOVE) Y2;END".toList := by decide
  rw [C01_accepts_exactly_blocks, hu]
  refine ⟨"G1X-1.5Y2".toList, ?_, by decide, by simp, ?_, by decide, by decide⟩
  · refine .char rfl (by decide) (by decide) <| .char rfl (by decide) (by decide) <|
      .space rfl <| .char rfl (by decide) (by decide) <| .char rfl (by decide) (by decide) <|
      .char rfl (by decide) (by decide) <| .char rfl (by decide) (by decide) <|
      .char rfl (by decide) (by decide) <| .space rfl <|
      Strip.paren (b := "MOVE".toList) (by decide) <| .space rfl <|
      .char rfl (by decide) (by decide) <| .char rfl (by decide) (by decide) <|
      Strip.semi (b := "END".toList) (by decide) (.inl rfl) .nil
  · intro w hw
    simp only [List.mem_cons, List.not_mem_nil, or_false] at hw
    rcases hw with rfl | rfl | rfl
    · exact ⟨by decide, [], ['1'], rfl, .inl rfl, by decide, by decide⟩
    · exact ⟨by decide, ['-'], "1.5".toList, rfl, .inr (.inl rfl), by decide, by decide⟩
    · exact ⟨by decide, [], ['2'], rfl, .inl rfl, by decide, by decide⟩

/-- A line with trailing garbage is rejected: it is neither a block nor blank. -/
example : ∃ msg, parseLine "G1X".toList = .error (.gcode msg) :=
  ⟨"extra characters in line", by
    have hu : "G1X".toList.flatMap PyText.upper = "G1X".toList := by decide
    have hc : clean "G1X".toList = "G1X".toList := by
      rw [← strip_iff_clean]
      exact .char rfl (by decide) (by decide) <| .char rfl (by decide) (by decide) <|
        .char rfl (by decide) (by decide) .nil
    have hf : findall "G1X".toList = [('G', ['1'])] := by
      have h1 : findall ['G', '1', 'X'] = ('G', ['1']) :: findall ['X'] :=
        findall_word rfl (by decide)
      have h2 : findall ['X'] = findall [] := findall_skip (.inr (by decide))
      have : "G1X".toList = ['G', '1', 'X'] := by decide
      rw [this, h1, h2, findall_nil]
    unfold parseLine
    rw [hu, hc]
    unfold parseClean
    rw [hf]
    rfl⟩

end examples

/-- **C02.** White space inserted anywhere outside a comment does not change the result. -/
theorem C02_insert_blanks [PyText] (a ws s : List Char) (ha : Outside a) (hws : ∀ c ∈ ws, Blank c) :
    parseLine (a ++ ws ++ s) = parseLine (a ++ s) := by
  obtain ⟨t, ht⟩ := clean_upper_outside ha
  unfold parseLine
  simp only [List.flatMap_append, List.append_assoc, ht, clean_blanks hws]

/-- **C02.** A closed comment `(...)` inserted anywhere outside a comment does not change
the result. -/
theorem C02_insert_paren_comment [PyText] (a b s : List Char) (ha : Outside a)
    (hb : ∀ c ∈ b, c ≠ ')' ∧ c ≠ '\n') :
    parseLine (a ++ ('(' :: (b ++ [')'])) ++ s) = parseLine (a ++ s) := by
  obtain ⟨t, ht⟩ := clean_upper_outside ha
  obtain ⟨t', ht'⟩ := clean_upper_outside (Outside.paren hb .nil)
  have h0 : clean (('(' :: (b ++ [')'])).flatMap PyText.upper ++ []) = t' ++ clean [] := ht' []
  have h1 : ∀ s, clean (('(' :: (b ++ [')'])).flatMap PyText.upper ++ s) = clean s := by
    intro s
    simp only [List.flatMap_cons, List.flatMap_append, upper_special_char (d := '(') (by simp),
      upper_special_char (d := ')') (by simp), List.nil_append, List.cons_append,
      List.append_assoc, List.flatMap_nil, List.append_nil]
    refine clean_paren (afterParen_some.2 ⟨_, rfl, fun c hc => ⟨?_, ?_⟩⟩)
    · exact upper_no (by simp) (fun c hc => (hb c hc).1) c hc
    · exact upper_no (by simp) (fun c hc => (hb c hc).2) c hc
  unfold parseLine
  rw [List.append_assoc, List.flatMap_append, ht, List.flatMap_append, h1, List.flatMap_append, ht]

/-- **C02.** A `;` comment appended outside a comment does not change the result. -/
theorem C02_append_semicolon_comment [PyText] (a b : List Char) (ha : Outside a)
    (hb : ∀ c ∈ b, c ≠ '\n') : parseLine (a ++ ';' :: b) = parseLine a := by
  obtain ⟨t, ht⟩ := clean_upper_outside ha
  have h2 : clean ((';' :: b).flatMap PyText.upper) = clean [] := by
    rw [List.flatMap_cons, upper_special_char (d := ';') (by simp), List.cons_append,
      List.nil_append, clean_semi]
    have := afterSemi_append (upper_no (d := '\n') (by simp) hb) (s := []) (.inl rfl)
    rw [List.append_nil] at this
    rw [this]
  have h3 := ht []
  rw [List.append_nil] at h3
  unfold parseLine
  rw [List.flatMap_append, ht, h2, h3]

/-- The hypotheses of C02 hold in the middle of a line that already has a comment. -/
example : Outside "G1 (a;b) X1".toList := by
  refine .char (by decide) (by decide) <| .char (by decide) (by decide) <|
    .char (by decide) (by decide) <| Outside.paren (b := "a;b".toList) (by decide) <|
    .char (by decide) (by decide) <| .char (by decide) (by decide) <|
    .char (by decide) (by decide) .nil

/-- **C03.** The case of ASCII letters does not matter. -/
theorem C03_case_insensitive [PyText] (l l' : List Char) (hl : ∀ c ∈ l, c.toNat < 128)
    (hl' : ∀ c ∈ l', c.toNat < 128) (h : l.map Char.toUpper = l'.map Char.toUpper) :
    parseLine l = parseLine l' := by
  have key : ∀ l : List Char, (∀ c ∈ l, c.toNat < 128) →
      l.flatMap PyText.upper = l.map Char.toUpper := by
    intro l hl
    induction l with
    | nil => rfl
    | cons c l ih =>
      rw [List.flatMap_cons, PyText.upper_ascii c (hl c (by simp)),
        ih fun c hc => hl c (by simp [hc])]
      rfl
  unfold parseLine
  rw [key l hl, key l' hl', h]

example : "g1 x2".toList.map Char.toUpper = "G1 X2".toList.map Char.toUpper := by decide

end PyCNC.Props
