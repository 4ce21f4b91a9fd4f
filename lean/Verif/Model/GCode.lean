import Verif.Model.Num

/-!
# `cnc/gcode.py`: parsing of one G-code line

Strings are lists of characters.
-/

namespace PyCNC

/-- What `str.upper()` and `\s` do.  Python 2 (byte strings) and Python 3 (Unicode)
differ outside ASCII, so both functions are parameters; only their behaviour on ASCII
is fixed.  Python 3 also counts `\x1c`-`\x1f` as white space, which the laws leave
open. -/
class PyText where
  /-- `c.upper()`; it can be more than one character in Unicode -/
  upper : Char → List Char
  /-- `re` class `\s` -/
  isSpace : Char → Bool
  /-- ASCII characters are mapped as by `Char.toUpper` -/
  upper_ascii : ∀ c : Char, c.toNat < 128 → upper c = [c.toUpper]
  /-- space and the control characters 9-13 are white space -/
  space_ascii : ∀ c : Char, c.toNat = 32 ∨ (9 ≤ c.toNat ∧ c.toNat ≤ 13) → isSpace c = true
  /-- printable ASCII is not white space -/
  not_space_ascii : ∀ c : Char, 33 ≤ c.toNat → c.toNat < 127 → isSpace c = false
  /-- upper-casing a non-ASCII character never produces a comment character or newline -/
  upper_special : ∀ c d : Char, 128 ≤ c.toNat → d ∈ upper c →
    d ≠ '(' ∧ d ≠ ')' ∧ d ≠ ';' ∧ d ≠ '\n'

/-- Python 2 byte strings: only ASCII letters are upper-cased, only the six ASCII white
space characters count. -/
@[instance_reducible] def asciiText : PyText where
  upper c := if c.toNat < 128 then [c.toUpper] else [c]
  isSpace c := c.toNat = 32 || (9 ≤ c.toNat && c.toNat ≤ 13)
  upper_ascii := by intro c h; simp [h]
  space_ascii := by intro c h; rcases h with h | h <;> simp [h]
  not_space_ascii := by intro c h1 h2; simp; omega
  upper_special := by
    intro c d h hd
    rw [if_neg (by omega), List.mem_singleton] at hd
    subst hd
    refine ⟨?_, ?_, ?_, ?_⟩ <;> rintro rfl <;> revert h <;> decide

/-- The text `after` the first `)` of `cs` when there is one before any newline:
the tail that `\(.*?\)` leaves (`.` does not match a newline), `gcode.py:8`. -/
def afterParen : List Char → Option (List Char)
  | [] => none
  | c :: cs => if c = ')' then some cs else if c = '\n' then none else afterParen cs

theorem afterParen_length {cs r : List Char} (h : afterParen cs = some r) :
    r.length < cs.length := by
  induction cs with
  | nil => simp [afterParen] at h
  | cons c cs ih =>
    unfold afterParen at h
    split at h
    · cases h; simp
    · split at h
      · cases h
      · have := ih h; simp; omega

/-- The tail that `;.*` leaves: everything from the next newline on, `gcode.py:8`. -/
def afterSemi : List Char → List Char
  | [] => []
  | c :: cs => if c = '\n' then c :: cs else afterSemi cs

theorem afterSemi_length (cs : List Char) : (afterSemi cs).length ≤ cs.length := by
  induction cs with
  | nil => simp [afterSemi]
  | cons c cs ih =>
    unfold afterSemi
    split
    · simp
    · simp; omega

/-- `re.sub(clean_pattern, '', line)`, `gcode.py:8,93`: scan from the left, at each
position try `\s+`, then `\(.*?\)`, then `;.*`; a match is deleted, otherwise the
character is kept.  (Deleting a run of white space at once or character by character
is the same.) -/
def clean [PyText] : List Char → List Char
  | [] => []
  | c :: cs =>
    if PyText.isSpace c then clean cs
    else if c = '(' then
      match _h : afterParen cs with
      | some r => clean r
      | none => c :: clean cs
    else if c = ';' then clean (afterSemi cs)
    else c :: clean cs
termination_by cs => cs.length
decreasing_by
  all_goals simp_wf
  · have := afterParen_length _h; omega
  · have := afterSemi_length cs; omega

/-- `[A-Z]`, `gcode.py:6`. -/
def isLetter (c : Char) : Bool := 'A' ≤ c && c ≤ 'Z'

/-- `[0-9.]`, `gcode.py:6`. -/
def isNumChar (c : Char) : Bool := ('0' ≤ c && c ≤ '9') || c = '.'

/-- `[-+]`, `gcode.py:6`. -/
def isSign (c : Char) : Bool := c = '-' || c = '+'

/-- One match of `[-+]?[0-9.]+` at the start of the text (greedy): the matched text and
the rest, or `none`, `gcode.py:6`. -/
def matchNumber : List Char → Option (List Char × List Char)
  | [] => none
  | c :: cs =>
    if isSign c then
      match cs.takeWhile isNumChar with
      | [] => none
      | ds => some (c :: ds, cs.dropWhile isNumChar)
    else
      match (c :: cs).takeWhile isNumChar with
      | [] => none
      | ds => some (ds, (c :: cs).dropWhile isNumChar)

theorem dropWhile_length_le {α : Type} (p : α → Bool) (l : List α) :
    (l.dropWhile p).length ≤ l.length := by
  induction l with
  | nil => simp
  | cons a l ih => simp only [List.dropWhile]; split <;> simp <;> omega

theorem matchNumber_length {l w r : List Char} (h : matchNumber l = some (w, r)) :
    r.length ≤ l.length := by
  cases l with
  | nil => simp [matchNumber] at h
  | cons c cs =>
    simp only [matchNumber] at h
    have h1 := dropWhile_length_le isNumChar cs
    have h2 := dropWhile_length_le isNumChar (c :: cs)
    split at h
    · split at h
      · cases h
      · cases h; simp; omega
    · split at h
      · cases h
      · cases h; simpa using h2

/-- `g_pattern.findall(line)`, `gcode.py:6,98`: all non-overlapping matches from left
to right; characters that start no match are skipped. -/
def findall : List Char → List (Char × List Char)
  | [] => []
  | c :: cs =>
    if isLetter c then
      match _h : matchNumber cs with
      | some (w, r) => (c, w) :: findall r
      | none => findall cs
    else findall cs
termination_by cs => cs.length
decreasing_by
  all_goals simp_wf
  · have := matchNumber_length _h; omega

/-- A parsed line: `GCode.params`, `gcode.py:21-25`.  The Python dict is an association
list; `parseLine` only builds lists without duplicated keys. -/
structure GCode where
  params : List (Char × List Char)
  deriving DecidableEq, Repr

/-- Number of different keys, `len(dict(m))`, `gcode.py:104-105`. -/
def dictLen (m : List (Char × List Char)) : Nat := (m.map (·.1)).eraseDups.length

/-- `GCode.parse_line(line)`, `gcode.py:86-109`, after the removal of comments. -/
def parseClean (line : List Char) : Except PyErr (Option GCode) :=
  if line.length = 0 then .ok none
  else if line.head? = some '%' then .ok none
  else
    let m := findall line
    if m = [] then .error (.gcode "gcode not found")
    else if (m.map fun p => 1 + p.2.length).sum ≠ line.length then
      .error (.gcode "extra characters in line")
    else if dictLen m ≠ m.length then .error (.gcode "duplicated gcode entries")
    else if (m.any (·.1 = 'G')) && (m.any (·.1 = 'M')) then
      .error (.gcode "g and m command found")
    else .ok (some ⟨m⟩)

/-- `GCode.parse_line(line)`, `gcode.py:86-109`. -/
def parseLine [PyText] (line : List Char) : Except PyErr (Option GCode) :=
  parseClean (clean (line.flatMap PyText.upper))

/-- Value of a list of digits. -/
def digitsVal : List Char → Nat → Nat
  | [], acc => acc
  | c :: cs, acc => digitsVal cs (10 * acc + (c.toNat - '0'.toNat))

/-- `float(s)` for a text `s` of digits and dots without sign: a `ValueError` (here
`none`) unless there is at least one digit and at most one dot. -/
def parseUnsigned (s : List Char) : Option Rat :=
  let ip := s.takeWhile (· ≠ '.')
  match s.dropWhile (· ≠ '.') with
  | [] => if ip = [] then none else some (digitsVal ip 0)
  | _ :: fp =>
    if fp.contains '.' then none
    else if ip = [] ∧ fp = [] then none
    else some ((digitsVal (ip ++ fp) 0 : Rat) / (10 : Rat) ^ fp.length)

/-- `float(s)` for a text `s` matched by `[-+]?[0-9.]+`, used in `gcode.py:44`.  The exact
decimal value; the conversion to a float is done by `PyNum.ofRat`.  Simplification: a
literal beyond 10^308, which Python reads as infinity, keeps its value. -/
def parseFloat : List Char → Option Rat
  | [] => none
  | c :: cs =>
    if c = '-' then (parseUnsigned cs).map (- ·)
    else if c = '+' then parseUnsigned cs
    else parseUnsigned (c :: cs)

namespace GCode

variable {F : Type} [PyNum F]

/-- `self.params[k]` or `None`. -/
def lookup (g : GCode) (k : Char) : Option (List Char) := g.params.lookup k

/-- `has`, `gcode.py:27-33`. -/
def has (g : GCode) (k : Char) : Bool := (g.lookup k).isSome

/-- `get`, `gcode.py:35-44`; `float()` can raise `ValueError`. -/
def get (g : GCode) (k : Char) (default mult : F) : Except PyErr F :=
  match g.lookup k with
  | none => .ok default
  | some s =>
    match parseFloat s with
    | none => .error .value
    | some q => .ok (PyNum.ofRat q *ₚ mult)

/-- `has_coordinates`, `gcode.py:58-63`. -/
def hasCoordinates (g : GCode) : Bool := g.has 'X' || g.has 'Y' || g.has 'Z' || g.has 'E'

/-- `command`, `gcode.py:76-84`: the letter and the text of the number. -/
def command (g : GCode) : Option (List Char) :=
  match g.lookup 'G' with
  | some s => some ('G' :: s)
  | none =>
    match g.lookup 'M' with
    | some s => some ('M' :: s)
    | none => none

end GCode

end PyCNC
