import Verif.Model.GCode

/-!
# Specification of G-code lines

Nothing here uses the scanning functions of the model.
-/

namespace PyCNC.Spec

/-- `Strip s t`: `t` is `s` without white space and comments.  A `(` opens a comment when
a `)` follows on the same line; `;` comments out the rest of the line. -/
inductive Strip [PyText] : List Char → List Char → Prop
  | nil : Strip [] []
  | space {c s t} : PyText.isSpace c = true → Strip s t → Strip (c :: s) t
  | paren {b s t} : (∀ c ∈ b, c ≠ ')' ∧ c ≠ '\n') → Strip s t → Strip ('(' :: (b ++ ')' :: s)) t
  | semi {b s t} : (∀ c ∈ b, c ≠ '\n') → (s = [] ∨ s.head? = some '\n') → Strip s t →
      Strip (';' :: (b ++ s)) t
  | openParen {b s t} : (∀ c ∈ b, c ≠ ')' ∧ c ≠ '\n') → (s = [] ∨ s.head? = some '\n') →
      Strip (b ++ s) t → Strip ('(' :: (b ++ s)) ('(' :: t)
  | char {c s t} : PyText.isSpace c = false → c ≠ '(' → c ≠ ';' → Strip s t →
      Strip (c :: s) (c :: t)

/-- A number as written in G-code: optional sign, then digits and dots. -/
def NumText (s : List Char) : Prop :=
  ∃ sign ds, s = sign ++ ds ∧ (sign = [] ∨ sign = ['-'] ∨ sign = ['+']) ∧ ds ≠ [] ∧
    ∀ c ∈ ds, ('0' ≤ c ∧ c ≤ '9') ∨ c = '.'

/-- A word: a letter followed by a number. -/
def Word (w : Char × List Char) : Prop := ('A' ≤ w.1 ∧ w.1 ≤ 'Z') ∧ NumText w.2

/-- The text of a list of words. -/
def wordsText (ws : List (Char × List Char)) : List Char := ws.flatMap fun w => w.1 :: w.2

/-- A well formed block: at least one word, no letter twice, not both `G` and `M`. -/
structure Block (ws : List (Char × List Char)) : Prop where
  ne : ws ≠ []
  words : ∀ w ∈ ws, Word w
  nodup : (ws.map (·.1)).Nodup
  one_cmd : ¬ ('G' ∈ ws.map (·.1) ∧ 'M' ∈ ws.map (·.1))

/-- `Outside s`: after reading `s` from the start of the text no comment is open: every
`(` of `s` is closed in `s` and every `;` comment ended with its line. -/
inductive Outside : List Char → Prop
  | nil : Outside []
  | char {c s} : c ≠ '(' → c ≠ ';' → Outside s → Outside (c :: s)
  | paren {b s} : (∀ c ∈ b, c ≠ ')' ∧ c ≠ '\n') → Outside s → Outside ('(' :: (b ++ ')' :: s))
  | semi {b s} : (∀ c ∈ b, c ≠ '\n') → Outside s → Outside (';' :: (b ++ '\n' :: s))

/-- ASCII white space. -/
def Blank (c : Char) : Prop := c.toNat = 32 ∨ (9 ≤ c.toNat ∧ c.toNat ≤ 13)

/-- A decimal number: at least one digit and at most one dot. -/
def Decimal (s : List Char) : Prop :=
  NumText s ∧ s.count '.' ≤ 1 ∧ ∃ c ∈ s, '0' ≤ c ∧ c ≤ '9'

end PyCNC.Spec
