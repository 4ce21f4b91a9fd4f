import Verif.Model.GCode
import Verif.Spec.GCode

/-!
# Lemmas about the parser
-/

namespace PyCNC

open Spec

variable [PyText]

set_option linter.unusedSectionVars false

theorem afterParen_some {cs r : List Char} :
    afterParen cs = some r ↔ ∃ b, cs = b ++ ')' :: r ∧ ∀ c ∈ b, c ≠ ')' ∧ c ≠ '\n' := by
  induction cs with
  | nil => simp [afterParen]
  | cons c cs ih =>
    unfold afterParen
    split
    · rename_i h; subst h
      constructor
      · intro h; cases h; exact ⟨[], rfl, by simp⟩
      · rintro ⟨b, hb, h⟩
        cases b with
        | nil => simp at hb; simp [hb]
        | cons d b => simp at hb; exact absurd hb.1.symm (h d (by simp)).1
    · rename_i h1
      split
      · rename_i h; subst h
        constructor
        · intro h; cases h
        · rintro ⟨b, hb, h⟩
          cases b with
          | nil => simp at hb
          | cons d b => simp at hb; exact absurd hb.1.symm (h d (by simp)).2
      · rename_i h2
        rw [ih]
        constructor
        · rintro ⟨b, rfl, h⟩
          exact ⟨c :: b, rfl, by simpa [h1, h2] using h⟩
        · rintro ⟨b, hb, h⟩
          cases b with
          | nil => simp at hb; exact absurd hb.1 h1
          | cons d b =>
            simp at hb
            exact ⟨b, hb.2, fun c hc => h c (by simp [hc])⟩

theorem afterParen_none {cs : List Char} (h : afterParen cs = none) :
    ∃ b s, cs = b ++ s ∧ (∀ c ∈ b, c ≠ ')' ∧ c ≠ '\n') ∧ (s = [] ∨ s.head? = some '\n') := by
  induction cs with
  | nil => exact ⟨[], [], rfl, by simp, .inl rfl⟩
  | cons c cs ih =>
    unfold afterParen at h
    split at h
    · cases h
    · rename_i h1
      split at h
      · rename_i h2; subst h2
        exact ⟨[], _, rfl, by simp, .inr rfl⟩
      · rename_i h2
        obtain ⟨b, s, rfl, hb, hs⟩ := ih h
        exact ⟨c :: b, s, rfl, by simpa [h1, h2] using hb, hs⟩

theorem afterParen_eq_none {b s : List Char} (hb : ∀ c ∈ b, c ≠ ')' ∧ c ≠ '\n')
    (hs : s = [] ∨ s.head? = some '\n') : afterParen (b ++ s) = none := by
  induction b with
  | nil =>
    rcases hs with rfl | hs
    · rfl
    · cases s with
      | nil => cases hs
      | cons d s => simp at hs; subst hs; simp [afterParen]
  | cons c b ih =>
    have := hb c (by simp)
    simp only [List.cons_append, afterParen, this.1, this.2, if_false]
    exact ih fun c hc => hb c (by simp [hc])

theorem afterSemi_spec (cs : List Char) :
    ∃ b, cs = b ++ afterSemi cs ∧ (∀ c ∈ b, c ≠ '\n') ∧
      (afterSemi cs = [] ∨ (afterSemi cs).head? = some '\n') := by
  induction cs with
  | nil => exact ⟨[], rfl, by simp, .inl rfl⟩
  | cons c cs ih =>
    unfold afterSemi
    split
    · rename_i h; subst h; exact ⟨[], rfl, by simp, .inr rfl⟩
    · rename_i h
      obtain ⟨b, h1, h2, h3⟩ := ih
      exact ⟨c :: b, by simpa using h1, by simpa [h] using h2, h3⟩

theorem afterSemi_append {b s : List Char} (hb : ∀ c ∈ b, c ≠ '\n')
    (hs : s = [] ∨ s.head? = some '\n') : afterSemi (b ++ s) = s := by
  induction b with
  | nil =>
    rcases hs with rfl | hs
    · rfl
    · cases s with
      | nil => cases hs
      | cons d s => simp at hs; subst hs; simp [afterSemi]
  | cons c b ih =>
    have := hb c (by simp)
    simp only [List.cons_append, afterSemi, this, if_false]
    exact ih fun c hc => hb c (by simp [hc])

theorem not_space_paren : PyText.isSpace '(' = false := PyText.not_space_ascii _ (by decide) (by decide)
theorem not_space_semi : PyText.isSpace ';' = false := PyText.not_space_ascii _ (by decide) (by decide)

theorem clean_nil : clean [] = [] := by unfold clean; rfl

theorem clean_space {c : Char} {s : List Char} (h : PyText.isSpace c = true) :
    clean (c :: s) = clean s := by
  rw [clean]; simp [h]

theorem clean_paren {s r : List Char} (h : afterParen s = some r) :
    clean ('(' :: s) = clean r := by
  rw [clean]; simp only [not_space_paren]
  simp
  split
  · rename_i h'; rw [h] at h'; cases h'; rfl
  · rename_i h'; rw [h] at h'; cases h'

theorem clean_open {s : List Char} (h : afterParen s = none) :
    clean ('(' :: s) = '(' :: clean s := by
  rw [clean]; simp only [not_space_paren]
  simp
  split
  · rename_i h'; rw [h] at h'; cases h'
  · rfl

theorem clean_semi {s : List Char} : clean (';' :: s) = clean (afterSemi s) := by
  rw [clean]; simp [not_space_semi]

theorem clean_char {c : Char} {s : List Char} (h : PyText.isSpace c = false) (h1 : c ≠ '(')
    (h2 : c ≠ ';') : clean (c :: s) = c :: clean s := by
  rw [clean]; simp [h, h1, h2]

theorem strip_iff_clean (s t : List Char) : Strip s t ↔ clean s = t := by
  constructor
  · intro h
    induction h with
    | nil => exact clean_nil
    | space h _ ih => rw [clean_space h, ih]
    | paren h _ ih => rw [clean_paren (afterParen_some.2 ⟨_, rfl, h⟩), ih]
    | semi h h' _ ih => rw [clean_semi, afterSemi_append h h', ih]
    | openParen h h' _ ih => rw [clean_open (afterParen_eq_none h h'), ih]
    | char h h1 h2 _ ih => rw [clean_char h h1 h2, ih]
  · rintro rfl
    fun_induction clean s with
    | case1 => exact .nil
    | case2 c cs h ih => exact .space h ih
    | case3 cs r h _ ih =>
      obtain ⟨b, rfl, hb⟩ := afterParen_some.1 h
      exact .paren hb ih
    | case4 cs h _ ih =>
      obtain ⟨b, s, rfl, hb, hs⟩ := afterParen_none h
      exact .openParen hb hs ih
    | case5 cs ih =>
      rename_i ih
      obtain ⟨b, h1, h2, h3⟩ := afterSemi_spec cs
      have := Strip.semi h2 h3 ih
      rwa [← h1] at this
    | case6 c cs h h1 h2 ih => exact .char (by simpa using h) h1 h2 ih

/-! ## Tokens -/

theorem isLetter_iff {c : Char} : isLetter c = true ↔ 'A' ≤ c ∧ c ≤ 'Z' := by
  simp [isLetter]

theorem isNumChar_iff {c : Char} : isNumChar c = true ↔ ('0' ≤ c ∧ c ≤ '9') ∨ c = '.' := by
  simp [isNumChar]

theorem isSign_iff {c : Char} : isSign c = true ↔ c = '-' ∨ c = '+' := by
  simp [isSign]

theorem char_le_iff {a b : Char} : a ≤ b ↔ a.toNat ≤ b.toNat := by
  rw [Char.le_def, UInt32.le_iff_toNat_le]; rfl

theorem letter_not_num {c : Char} (h : 'A' ≤ c ∧ c ≤ 'Z') : isNumChar c = false := by
  cases hc : isNumChar c with
  | false => rfl
  | true =>
    rw [isNumChar_iff] at hc
    simp only [char_le_iff] at h hc
    rcases hc with hc | rfl
    · have : 'A'.toNat = 65 := rfl
      have : '9'.toNat = 57 := rfl
      omega
    · have : 'A'.toNat = 65 := rfl
      have : '.'.toNat = 46 := rfl
      omega

theorem takeWhile_append_stop {α : Type} {p : α → Bool} {a b : List α} (ha : ∀ x ∈ a, p x = true)
    (hb : ∀ x, b.head? = some x → p x = false) :
    (a ++ b).takeWhile p = a ∧ (a ++ b).dropWhile p = b := by
  induction a with
  | nil =>
    cases b with
    | nil => simp
    | cons x b => have := hb x rfl; simp [this]
  | cons x a ih =>
    have h := ha x (by simp)
    have := ih fun y hy => ha y (by simp [hy])
    simp [h, this]

theorem numText_ne_nil {w : List Char} (h : NumText w) : w ≠ [] := by
  obtain ⟨sg, ds, rfl, _, h, _⟩ := h
  simp [h]

theorem isSign_not_num {c : Char} (h : isSign c = true) : isNumChar c = false := by
  rw [isSign_iff] at h
  rcases h with rfl | rfl <;> decide

theorem num_not_sign {c : Char} (h : isNumChar c = true) : isSign c = false := by
  cases hs : isSign c with
  | false => rfl
  | true => rw [isSign_not_num hs] at h; cases h

/-- A number followed by something that is no number character is matched exactly. -/
theorem matchNumber_append {w r : List Char} (hw : NumText w)
    (hr : ∀ x, r.head? = some x → isNumChar x = false) :
    matchNumber (w ++ r) = some (w, r) := by
  obtain ⟨sg, ds, rfl, hs, hne, hd⟩ := hw
  have hd' : ∀ x ∈ ds, isNumChar x = true := fun x hx => isNumChar_iff.2 (hd x hx)
  have key := takeWhile_append_stop hd' hr
  cases ds with
  | nil => exact absurd rfl hne
  | cons d ds =>
    have hdn := hd' d (by simp)
    rcases hs with rfl | rfl | rfl
    · have hsg := num_not_sign hdn
      simp only [List.nil_append, List.cons_append, matchNumber, hsg]
      simp only [List.cons_append] at key
      rw [key.1, key.2]; simp
    · have : isSign '-' = true := rfl
      simp only [List.cons_append, List.nil_append, matchNumber, this]
      simp only [List.cons_append] at key
      rw [key.1, key.2]; simp
    · have : isSign '+' = true := rfl
      simp only [List.cons_append, List.nil_append, matchNumber, this]
      simp only [List.cons_append] at key
      rw [key.1, key.2]; simp

theorem takeWhile_all {α : Type} (p : α → Bool) (l : List α) : ∀ x ∈ l.takeWhile p, p x = true := by
  induction l with
  | nil => simp
  | cons a l ih =>
    intro x hx
    simp only [List.takeWhile] at hx
    split at hx
    · rcases List.mem_cons.1 hx with rfl | hx
      · assumption
      · exact ih x hx
    · cases hx

theorem matchNumber_some {l w r : List Char} (h : matchNumber l = some (w, r)) :
    l = w ++ r ∧ NumText w := by
  cases l with
  | nil => simp [matchNumber] at h
  | cons c cs =>
    simp only [matchNumber] at h
    split at h
    · rename_i hs
      split at h
      · cases h
      · rename_i ds hds
        cases h
        refine ⟨by simp [List.takeWhile_append_dropWhile], [c], _, rfl, ?_, hds, ?_⟩
        · rw [isSign_iff] at hs
          rcases hs with rfl | rfl <;> simp
        · intro x hx
          exact isNumChar_iff.1 (takeWhile_all _ _ x hx)
    · split at h
      · cases h
      · rename_i ds hds
        cases h
        refine ⟨(List.takeWhile_append_dropWhile).symm, [], _, rfl, .inl rfl, hds, ?_⟩
        intro x hx
        exact isNumChar_iff.1 (takeWhile_all isNumChar (c :: cs) x hx)

theorem findall_nil : findall [] = [] := by unfold findall; rfl

theorem findall_skip {c : Char} {cs : List Char} (h : isLetter c = false ∨ matchNumber cs = none) :
    findall (c :: cs) = findall cs := by
  rw [findall]
  split
  · rename_i hl
    split
    · rename_i hm
      rcases h with h | h
      · rw [h] at hl; cases hl
      · rw [h] at hm; cases hm
    · rfl
  · rfl

theorem findall_word {c : Char} {cs w r : List Char} (hl : isLetter c = true)
    (hm : matchNumber cs = some (w, r)) : findall (c :: cs) = (c, w) :: findall r := by
  rw [findall]
  simp only [hl, if_true]
  split
  · rename_i hm'; rw [hm] at hm'; cases hm'; rfl
  · rename_i hm'; rw [hm] at hm'; cases hm'

theorem findall_words {ws : List (Char × List Char)} (h : ∀ w ∈ ws, Word w) :
    findall (wordsText ws) = ws := by
  induction ws with
  | nil => exact findall_nil
  | cons w ws ih =>
    have hw := h w (by simp)
    have ih := ih fun w hw => h w (by simp [hw])
    have htxt : wordsText (w :: ws) = w.1 :: (w.2 ++ wordsText ws) := by simp [wordsText]
    rw [htxt, findall_word (isLetter_iff.2 hw.1) (matchNumber_append hw.2 ?_), ih]
    intro x hx
    cases ws with
    | nil => simp [wordsText] at hx
    | cons w' ws =>
      simp [wordsText] at hx
      subst hx
      exact letter_not_num (h w' (by simp)).1

theorem findall_all_words (l : List Char) : ∀ w ∈ findall l, Word w := by
  fun_induction findall l with
  | case1 => simp
  | case2 c cs hl w r hm ih =>
    intro x hx
    rcases List.mem_cons.1 hx with rfl | hx
    · exact ⟨isLetter_iff.1 hl, (matchNumber_some hm).2⟩
    · exact ih x hx
  | case3 c cs hl hm ih => exact ih
  | case4 c cs hl ih => exact ih

theorem textLen (ws : List (Char × List Char)) :
    (ws.map fun p => 1 + p.2.length).sum = (wordsText ws).length := by
  induction ws with
  | nil => simp [wordsText]
  | cons w ws ih =>
    have htxt : wordsText (w :: ws) = w.1 :: (w.2 ++ wordsText ws) := by simp [wordsText]
    rw [htxt]; simp [ih]; omega

theorem findall_length (l : List Char) :
    (wordsText (findall l)).length ≤ l.length ∧
      ((wordsText (findall l)).length = l.length → wordsText (findall l) = l) := by
  fun_induction findall l with
  | case1 => simp [wordsText]
  | case2 c cs hl w r hm ih =>
    have htxt : wordsText ((c, w) :: findall r) = c :: (w ++ wordsText (findall r)) := by
      simp [wordsText]
    obtain ⟨rfl, _⟩ := matchNumber_some hm
    rw [htxt]
    refine ⟨by simp; omega, fun h => ?_⟩
    simp at h
    rw [ih.2 h]
  | case3 c cs hl hm ih => exact ⟨by simp; omega, fun h => by simp at h; omega⟩
  | case4 c cs hl ih => exact ⟨by simp; omega, fun h => by simp at h; omega⟩

theorem eraseDups_length_aux {α : Type} [DecidableEq α] (n : Nat) : ∀ l : List α, l.length ≤ n →
    l.eraseDups.length ≤ l.length ∧ (l.eraseDups.length = l.length ↔ l.Nodup) := by
  induction n with
  | zero =>
    intro l hl
    have : l = [] := List.length_eq_zero_iff.1 (by omega)
    subst this; simp
  | succ n ih =>
    intro l hl
    cases l with
    | nil => simp
    | cons a l =>
      have hf := List.length_filter_le (fun b => !b == a) l
      simp only [List.length_cons] at hl
      have := ih (l.filter fun b => !b == a) (by omega)
      rw [List.eraseDups_cons, List.nodup_cons]
      simp only [List.length_cons]
      refine ⟨by omega, ⟨fun h => ?_, fun h => ?_⟩⟩
      · have hlen : (l.filter fun b => !b == a).length = l.length := by omega
        have hall := List.length_filter_eq_length_iff.1 hlen
        have hfe : (l.filter fun b => !b == a) = l := List.filter_eq_self.2 hall
        refine ⟨fun hm => by simpa using hall a hm, ?_⟩
        rw [hfe] at this
        exact this.2.1 (by rw [hfe] at h; omega)
      · have hfe : (l.filter fun b => !b == a) = l := by
          rw [List.filter_eq_self]
          intro b hb
          have : b ≠ a := fun e => h.1 (e ▸ hb)
          simp [this]
        rw [hfe] at this ⊢
        rw [this.2.2 h.2]

theorem eraseDups_length_iff {α : Type} [DecidableEq α] (l : List α) :
    l.eraseDups.length = l.length ↔ l.Nodup := (eraseDups_length_aux _ l (Nat.le_refl _)).2

theorem dictLen_iff (m : List (Char × List Char)) :
    dictLen m = m.length ↔ (m.map (·.1)).Nodup := by
  rw [dictLen, ← eraseDups_length_iff, List.length_map]

theorem any_key_iff (m : List (Char × List Char)) (k : Char) :
    m.any (fun p => decide (p.1 = k)) = true ↔ k ∈ m.map (·.1) := by
  simp [List.any_eq_true]

/-- The parser on a text without comments accepts exactly the well formed blocks. -/
theorem parseClean_ok {t : List Char} {g : GCode} :
    parseClean t = .ok (some g) ↔ t = wordsText g.params ∧ Block g.params := by
  unfold parseClean
  constructor
  · intro h
    split at h
    · cases h
    · split at h
      · cases h
      · simp only at h
        split at h
        · cases h
        · rename_i hne
          split at h
          · cases h
          · rename_i hlen
            split at h
            · cases h
            · rename_i hd
              split at h
              · cases h
              · rename_i hgm
                cases h
                rw [textLen] at hlen
                refine ⟨((findall_length t).2 (by omega)).symm, hne, findall_all_words t,
                  (dictLen_iff _).1 (Classical.not_not.1 hd), ?_⟩
                rintro ⟨hG, hM⟩
                apply hgm
                rw [Bool.and_eq_true]
                exact ⟨(any_key_iff _ _).2 hG, (any_key_iff _ _).2 hM⟩
  · rintro ⟨rfl, hb⟩
    have hf := findall_words hb.words
    have hne : wordsText g.params ≠ [] := by
      intro h
      rw [h, findall_nil] at hf
      exact hb.ne hf.symm
    have hhd : (wordsText g.params).head? ≠ some '%' := by
      cases hp : g.params with
      | nil => exact absurd hp hb.ne
      | cons w ws =>
        have := (hb.words w (by simp [hp])).1
        simp only [wordsText, List.flatMap_cons, List.cons_append, List.head?_cons]
        intro h
        have h := Option.some.inj h
        rw [h] at this
        revert this; decide
    rw [if_neg (by simpa using hne), if_neg hhd]
    simp only [hf]
    rw [if_neg hb.ne, if_neg (by rw [textLen]; simp), if_neg (by
      simpa using (dictLen_iff _).2 hb.nodup), if_neg]
    intro h
    rw [Bool.and_eq_true] at h
    exact hb.one_cmd ⟨(any_key_iff _ _).1 h.1, (any_key_iff _ _).1 h.2⟩

theorem parseClean_none {t : List Char} :
    parseClean t = .ok none ↔ t = [] ∨ t.head? = some '%' := by
  unfold parseClean
  constructor
  · intro h
    split at h
    · rename_i h0; exact .inl (List.length_eq_zero_iff.1 h0)
    · split at h
      · rename_i h1; exact .inr h1
      · simp only at h
        split at h
        · cases h
        · split at h
          · cases h
          · split at h
            · cases h
            · split at h <;> cases h
  · rintro (rfl | h)
    · simp
    · rw [if_pos h]; simp

theorem parseClean_error {t : List Char} {e : PyErr} (h : parseClean t = .error e) :
    ∃ msg, e = .gcode msg := by
  unfold parseClean at h
  split at h
  · cases h
  · split at h
    · cases h
    · simp only at h
      split at h
      · cases h; exact ⟨_, rfl⟩
      · split at h
        · cases h; exact ⟨_, rfl⟩
        · split at h
          · cases h; exact ⟨_, rfl⟩
          · split at h <;> cases h; exact ⟨_, rfl⟩

/-! ## Comments and white space -/

theorem char_toUpper_ascii (c : Char) (h : c.toNat < 128) (d : Char)
    (hd : d = '(' ∨ d = ')' ∨ d = ';' ∨ d = '\n') : c.toUpper = d ↔ c = d := by
  have key : ∀ n : Fin 128, ∀ d ∈ ['(', ')', ';', '\n'],
      ((Char.ofNat n.1).toUpper = d ↔ Char.ofNat n.1 = d) := by decide
  have := key ⟨c.toNat, h⟩ d (by rcases hd with rfl | rfl | rfl | rfl <;> simp)
  rwa [Char.ofNat_toNat] at this

theorem upper_mem {c d : Char} (h : d ∈ PyText.upper c)
    (hd : d = '(' ∨ d = ')' ∨ d = ';' ∨ d = '\n') : c = d := by
  by_cases hc : c.toNat < 128
  · rw [PyText.upper_ascii c hc, List.mem_singleton] at h
    exact (char_toUpper_ascii c hc d hd).1 h.symm
  · have := PyText.upper_special c d (by omega) h
    rcases hd with rfl | rfl | rfl | rfl <;> simp at this

theorem upper_special_char {d : Char} (hd : d = '(' ∨ d = ')' ∨ d = ';' ∨ d = '\n') :
    PyText.upper d = [d] := by
  have h : d.toNat < 128 := by rcases hd with rfl | rfl | rfl | rfl <;> decide
  rw [PyText.upper_ascii d h, (char_toUpper_ascii d h d hd).2 rfl]

theorem upper_no {b : List Char} {d : Char} (hd : d = '(' ∨ d = ')' ∨ d = ';' ∨ d = '\n')
    (h : ∀ c ∈ b, c ≠ d) : ∀ c ∈ b.flatMap PyText.upper, c ≠ d := by
  intro c hc e
  subst e
  obtain ⟨a, ha, hca⟩ := List.mem_flatMap.1 hc
  exact h a ha (upper_mem hca hd)

/-- Cleaning after a part that leaves no comment open starts afresh. -/
theorem clean_upper_outside {a : List Char} (ha : Outside a) :
    ∃ t, ∀ s, clean (a.flatMap PyText.upper ++ s) = t ++ clean s := by
  induction ha with
  | nil => exact ⟨[], by simp⟩
  | @char c a h1 h2 _ ih =>
    obtain ⟨t, ht⟩ := ih
    have hc : ∀ d ∈ PyText.upper c, d ≠ '(' ∧ d ≠ ';' :=
      fun d hd => ⟨fun e => h1 ((upper_mem (e ▸ hd) (by simp)).trans rfl),
        fun e => h2 ((upper_mem (e ▸ hd) (by simp)).trans rfl)⟩
    have hu : ∃ t', ∀ s, clean (PyText.upper c ++ s) = t' ++ clean s := by
      generalize PyText.upper c = u at hc
      induction u with
      | nil => exact ⟨[], by simp⟩
      | cons d u ihu =>
        obtain ⟨t', ht'⟩ := ihu fun d hd => hc d (by simp [hd])
        cases hsp : PyText.isSpace d with
        | true => exact ⟨t', fun s => by rw [List.cons_append, clean_space hsp, ht']⟩
        | false =>
          have := hc d (by simp)
          exact ⟨d :: t', fun s => by
            rw [List.cons_append, clean_char hsp this.1 this.2, ht']; rfl⟩
    obtain ⟨t', ht'⟩ := hu
    exact ⟨t' ++ t, fun s => by
      rw [List.append_assoc, ← ht s, ← ht', ← List.append_assoc, List.flatMap_cons]⟩
  | @paren b a hb _ ih =>
    obtain ⟨t, ht⟩ := ih
    refine ⟨t, fun s => ?_⟩
    rw [← ht s]
    simp only [List.flatMap_cons, List.flatMap_append, upper_special_char (d := '(') (by simp),
      upper_special_char (d := ')') (by simp), List.nil_append, List.cons_append,
      List.append_assoc]
    refine clean_paren (afterParen_some.2 ⟨_, rfl, fun c hc => ⟨?_, ?_⟩⟩)
    · exact upper_no (by simp) (fun c hc => (hb c hc).1) c hc
    · exact upper_no (by simp) (fun c hc => (hb c hc).2) c hc
  | @semi b a hb _ ih =>
    obtain ⟨t, ht⟩ := ih
    refine ⟨t, fun s => ?_⟩
    rw [← ht s]
    simp only [List.flatMap_cons, List.flatMap_append, upper_special_char (d := ';') (by simp),
      upper_special_char (d := '\n') (by simp), List.nil_append, List.cons_append,
      List.append_assoc]
    rw [clean_semi, afterSemi_append (upper_no (by simp) hb) (.inr rfl), clean_space]
    exact PyText.space_ascii _ (by decide)

theorem blank_upper {c : Char} (h : Blank c) : PyText.upper c = [c] ∧ PyText.isSpace c = true := by
  have hc : c.toNat < 128 := by unfold Blank at h; omega
  refine ⟨?_, PyText.space_ascii c h⟩
  rw [PyText.upper_ascii c hc]
  have key : ∀ n : Fin 128, (n.1 = 32 ∨ (9 ≤ n.1 ∧ n.1 ≤ 13)) →
      (Char.ofNat n.1).toUpper = Char.ofNat n.1 := by decide
  have := key ⟨c.toNat, hc⟩ h
  rw [Char.ofNat_toNat] at this
  rw [this]

theorem clean_blanks {ws : List Char} (h : ∀ c ∈ ws, Blank c) (s : List Char) :
    clean (ws.flatMap PyText.upper ++ s) = clean s := by
  induction ws with
  | nil => rfl
  | cons c ws ih =>
    have hc := blank_upper (h c (by simp))
    rw [List.flatMap_cons, hc.1, List.append_assoc, List.cons_append, List.nil_append,
      clean_space hc.2, ih fun c hc => h c (by simp [hc])]

end PyCNC
