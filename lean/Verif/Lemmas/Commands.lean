import Mathlib.Tactic.ByContra
import Verif.Lemmas.Machine
import Verif.Spec.Machine

/-!
# Command words and `Cmd`
-/

namespace PyCNC

open Spec

/-- The words that decode to a command. -/
def Cmd.words : Cmd → List (Char × String)
  | .g0 => [('G', "0")]
  | .g1 => [('G', "1")]
  | .g2 => [('G', "2")]
  | .g3 => [('G', "3")]
  | .g4 => [('G', "4")]
  | .g17 => [('G', "17")]
  | .g18 => [('G', "18")]
  | .g19 => [('G', "19")]
  | .g20 => [('G', "20")]
  | .g21 => [('G', "21")]
  | .g28 => [('G', "28")]
  | .g53 => [('G', "53")]
  | .g90 => [('G', "90")]
  | .g91 => [('G', "91")]
  | .g92 => [('G', "92")]
  | .m3 => [('M', "3")]
  | .m5 => [('M', "5")]
  | .finish => [('M', "2"), ('M', "30")]
  | .m84 => [('M', "84")]
  | .heat .extruder false => [('M', "104")]
  | .heat .extruder true => [('M', "109")]
  | .heat .bed false => [('M', "140")]
  | .heat .bed true => [('M', "190")]
  | .m105 => [('M', "105")]
  | .m106 => [('M', "106")]
  | .m107 => [('M', "107")]
  | .m111 => [('M', "111")]
  | .m114 => [('M', "114")]
  | .m82 => [('M', "82")]
  | .m83 => [('M', "83")]
  | .nothing => []
  | .unknown => []

private theorem ite_or {p : Prop} [Decidable p] {α : Type} {a b r : α}
    (h : (if p then a else b) = r) : (p ∧ a = r) ∨ b = r := by
  by_cases hp : p
  · rw [if_pos hp] at h; exact .inl ⟨hp, h⟩
  · rw [if_neg hp] at h; exact .inr h

theorem decode_words (l : Char) (n : List Char) (cmd : Cmd)
    (h : Cmd.decode (some (l :: n)) = cmd) (hu : cmd ≠ .unknown) :
    ∃ p ∈ cmd.words, p.1 = l ∧ p.2.toList = n := by
  unfold Cmd.decode at h
  dsimp only at h
  iterate 17
    rcases ite_or h with ⟨hc, rfl⟩ | h
    · injection hc with h1 h2
      subst h1; subst h2
      exact ⟨_, List.mem_singleton_self _, rfl, by decide⟩
  rcases ite_or h with ⟨hc, rfl⟩ | h
  · rcases hc with hc | hc
    · injection hc with h1 h2
      subst h1; subst h2
      exact ⟨('M', "2"), by simp [Cmd.words], rfl, by decide⟩
    · injection hc with h1 h2
      subst h1; subst h2
      exact ⟨('M', "30"), by simp [Cmd.words], rfl, by decide⟩
  iterate 12
    rcases ite_or h with ⟨hc, rfl⟩ | h
    · injection hc with h1 h2
      subst h1; subst h2
      exact ⟨_, List.mem_singleton_self _, rfl, by decide⟩
  exact absurd h.symm hu

theorem decode_some_ne (t : List Char) : Cmd.decode (some t) ≠ .nothing := by
  intro h
  unfold Cmd.decode at h
  dsimp only at h
  iterate 30
    rcases ite_or h with ⟨_, hc⟩ | h
    · cases hc
  cases h

theorem words_decode (cmd : Cmd) (p : Char × String) (h : p ∈ cmd.words) :
    Cmd.decode (some (p.1 :: p.2.toList)) = cmd := by
  rcases cmd with _ | _ | _ | _ | _ | _ | _ | _ | _ | _ | _ | _ | _ | _ | _ | _ | _ | _ | _ |
    ⟨_ | _, _ | _⟩ | _ | _ | _ | _ | _ | _ | _ | _ | _ <;>
    simp only [Cmd.words, List.mem_cons, List.not_mem_nil, or_false] at h <;>
    first
      | contradiction
      | (subst h; decide +kernel)
      | (rcases h with rfl | rfl <;> decide +kernel)

theorem words_known (cmd : Cmd) (p : Char × String) (h : p ∈ cmd.words) : p ∈ knownCommands := by
  rcases cmd with _ | _ | _ | _ | _ | _ | _ | _ | _ | _ | _ | _ | _ | _ | _ | _ | _ | _ | _ |
    ⟨_ | _, _ | _⟩ | _ | _ | _ | _ | _ | _ | _ | _ | _ <;>
    simp only [Cmd.words, List.mem_cons, List.not_mem_nil, or_false] at h <;>
    first
      | contradiction
      | (subst h; decide)
      | (rcases h with rfl | rfl <;> decide)

theorem words_letter (cmd : Cmd) (p : Char × String) (h : p ∈ cmd.words) :
    p.1 = 'G' ∨ p.1 = 'M' := by
  rcases cmd with _ | _ | _ | _ | _ | _ | _ | _ | _ | _ | _ | _ | _ | _ | _ | _ | _ | _ | _ |
    ⟨_ | _, _ | _⟩ | _ | _ | _ | _ | _ | _ | _ | _ | _ <;>
    simp only [Cmd.words, List.mem_cons, List.not_mem_nil, or_false] at h <;>
    first
      | contradiction
      | (subst h; decide)
      | (rcases h with rfl | rfl <;> decide)

theorem hasCoordinates_iff (g : GCode) : g.hasCoordinates = true ↔ NamesCoordinate g := by
  simp only [GCode.hasCoordinates, GCode.has, GCode.lookup, Bool.or_eq_true, NamesCoordinate,
    List.mem_cons, List.not_mem_nil, or_false, exists_eq_or_imp, exists_eq_left,
    Option.isSome_iff_ne_none, or_assoc]

theorem command_none_iff (g : GCode) : g.command = none ↔ NoCommand g := by
  unfold GCode.command NoCommand GCode.lookup
  rcases h1 : g.params.lookup 'G' with _ | a
  · rcases h2 : g.params.lookup 'M' with _ | b <;> simp
  · simp

/-- What a decoded command says about the text of the line. -/
theorem lineCmd_is {g : GCode} {cmd : Cmd} (h : lineCmd g = cmd) (hu : cmd ≠ .unknown)
    (hn : cmd ≠ .nothing) :
    IsOneOf g cmd.words ∨ (cmd = .g1 ∧ NoCommand g ∧ NamesCoordinate g) := by
  unfold lineCmd at h
  rcases hc : g.command with _ | t
  · rw [hc] at h
    dsimp only at h
    split at h
    · rename_i hco
      exact .inr ⟨h.symm, (command_none_iff g).1 hc, (hasCoordinates_iff g).1 hco⟩
    · exact absurd h.symm hn
  · rw [hc] at h
    dsimp only at h
    left
    unfold GCode.command GCode.lookup at hc
    rcases h1 : g.params.lookup 'G' with _ | a
    · rw [h1] at hc
      rcases h2 : g.params.lookup 'M' with _ | b
      · rw [h2] at hc; cases hc
      · rw [h2] at hc
        simp only [Option.some.injEq] at hc
        subst hc
        obtain ⟨p, hp, hl, ht⟩ := decode_words _ _ _ h hu
        exact ⟨p, hp, by rw [hl, h2, ht], fun _ => h1⟩
    · rw [h1] at hc
      simp only [Option.some.injEq] at hc
      subst hc
      obtain ⟨p, hp, hl, ht⟩ := decode_words _ _ _ h hu
      exact ⟨p, hp, by rw [hl, h1, ht], fun hm => by rw [hl] at hm; exact absurd hm (by decide)⟩

/-- A line with a known command word decodes to the command. -/
theorem is_lineCmd {g : GCode} {cmd : Cmd} (h : IsOneOf g cmd.words) : lineCmd g = cmd := by
  obtain ⟨p, hp, hl, hm⟩ := h
  have : g.command = some (p.1 :: p.2.toList) := by
    unfold GCode.command GCode.lookup
    rcases words_letter cmd p hp with h | h
    · rw [h] at hl ⊢
      rw [hl]
    · rw [hm h]
      rw [h] at hl ⊢
      dsimp only
      rw [hl]
  unfold lineCmd
  rw [this]
  exact words_decode cmd p hp

theorem lineCmd_nothing {g : GCode} : lineCmd g = .nothing ↔ NoCommand g ∧ ¬ NamesCoordinate g := by
  constructor
  · intro h
    unfold lineCmd at h
    rcases hc : g.command with _ | t
    · rw [hc] at h
      dsimp only at h
      split at h
      · cases h
      · rename_i hco
        exact ⟨(command_none_iff g).1 hc, fun h' => hco ((hasCoordinates_iff g).2 h')⟩
    · rw [hc] at h
      exact absurd h (decode_some_ne t)
  · rintro ⟨h1, h2⟩
    unfold lineCmd
    rw [(command_none_iff g).2 h1]
    exact if_neg fun h' => h2 ((hasCoordinates_iff g).1 h')

theorem lineCmd_g1 {g : GCode} : lineCmd g = .g1 ↔ IsFeedMove g := by
  constructor
  · intro h
    rcases lineCmd_is h (by decide) (by decide) with ⟨p, hp, h⟩ | ⟨_, h⟩
    · simp only [Cmd.words, List.mem_cons, List.not_mem_nil, or_false] at hp
      subst hp
      exact .inl h
    · exact .inr h
  · rintro (h | ⟨h1, h2⟩)
    · exact is_lineCmd ⟨_, List.mem_singleton_self _, h⟩
    · unfold lineCmd
      rw [(command_none_iff g).2 h1]
      exact if_pos ((hasCoordinates_iff g).2 h2)

theorem lineCmd_unknown {g : GCode} (h1 : ¬ NoCommand g) (h2 : ¬ IsOneOf g knownCommands) :
    lineCmd g = .unknown := by
  by_contra hu
  have hn : lineCmd g ≠ .nothing := fun h => h1 (lineCmd_nothing.1 h).1
  rcases lineCmd_is rfl hu hn with ⟨p, hp, h⟩ | ⟨_, h, _⟩
  · exact h2 ⟨p, words_known _ p hp, h⟩
  · exact h1 h

theorem lineCmd_mem {g : GCode} {cmd : Cmd} {l : List (Char × String)} (h : lineCmd g = cmd)
    (hu : cmd ≠ .unknown := by decide) (hn : cmd ≠ .nothing := by decide)
    (h1 : cmd ≠ .g1 := by decide)
    (hsub : ∀ p ∈ cmd.words, p ∈ l := by decide) : IsOneOf g l := by
  rcases lineCmd_is h hu hn with ⟨p, hp, h'⟩ | ⟨h', _⟩
  · exact ⟨p, hsub p hp, h'⟩
  · exact absurd h' h1

end PyCNC
