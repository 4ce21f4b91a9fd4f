import Verif.Spec.Decimals
import Verif.Lemmas.GCode
import Mathlib.Tactic.FieldSimp
import Mathlib.Tactic.Ring
import Mathlib.Tactic.NormNum
import Mathlib.Algebra.Order.Ring.Rat

/-!
# Property C61: the numbers of G-code words
-/

namespace PyCNC

open Spec

theorem digit_eq {c : Char} (h : '0' ≤ c ∧ c ≤ '9') :
    ((c.toNat - '0'.toNat : Nat) : Rat) = digit c := by
  have h1 : 48 ≤ c.toNat := h.1
  have h2 : '0'.toNat = 48 := by decide
  rw [h2, digit]
  push_cast [Nat.cast_sub h1]
  rfl

theorem digitsVal_eq : ∀ {l : List Char} (acc : Nat), Digits l →
    (digitsVal l acc : Rat) = acc * 10 ^ l.length + intVal l
  | [], acc, _ => by simp [digitsVal, intVal]
  | c :: cs, acc, h => by
    have h1 := digit_eq (h c (by simp))
    have h0 : '0'.toNat = 48 := by decide
    rw [h0] at h1
    rw [digitsVal, digitsVal_eq _ (fun d hd => h d (by simp [hd])), intVal, List.length_cons]
    push_cast
    rw [h1]
    ring

theorem intVal_append : ∀ (a b : List Char), intVal (a ++ b) = intVal a * 10 ^ b.length + intVal b
  | [], b => by simp [intVal]
  | c :: cs, b => by
    rw [List.cons_append, intVal, intVal, intVal_append cs b, List.length_append]
    ring

theorem fracVal_eq : ∀ (l : List Char), fracVal l = intVal l / 10 ^ l.length
  | [] => by simp [fracVal, intVal]
  | c :: cs => by
    rw [fracVal, intVal, fracVal_eq cs, List.length_cons]
    field_simp
    ring

theorem split_dot (s : List Char) : (∃ ip fp, s = ip ++ '.' :: fp ∧ '.' ∉ ip ∧
      s.takeWhile (· ≠ '.') = ip ∧ s.dropWhile (· ≠ '.') = '.' :: fp) ∨
    ('.' ∉ s ∧ s.takeWhile (· ≠ '.') = s ∧ s.dropWhile (· ≠ '.') = []) := by
  induction s with
  | nil => exact .inr ⟨by simp, rfl, rfl⟩
  | cons c cs ih =>
    by_cases hc : c = '.'
    · subst hc
      exact .inl ⟨[], cs, rfl, by simp, by simp, by simp⟩
    · rcases ih with ⟨ip, fp, h1, h2, h3, h4⟩ | ⟨h1, h2, h3⟩
      · refine .inl ⟨c :: ip, fp, by rw [h1]; rfl, ?_, ?_, ?_⟩
        · simp [h2, Ne.symm hc]
        · rw [List.takeWhile_cons_of_pos (by simpa using hc), h3]
        · rw [List.dropWhile_cons_of_pos (by simpa using hc), h4]
      · refine .inr ⟨by simp [h1, Ne.symm hc], ?_, ?_⟩
        · rw [List.takeWhile_cons_of_pos (by simpa using hc), h2]
        · rw [List.dropWhile_cons_of_pos (by simpa using hc), h3]

theorem digits_no_dot {l : List Char} (h : Digits l) : '.' ∉ l := by
  intro hm
  have := (h _ hm).1
  revert this
  decide

theorem unsigned_iff {s : List Char} (hs : ∀ c ∈ s, ('0' ≤ c ∧ c ≤ '9') ∨ c = '.') (q : Rat) :
    parseUnsigned s = some q ↔ DenotesU s q := by
  have hdig : ∀ {l : List Char}, (∀ c ∈ l, c ∈ s) → '.' ∉ l → Digits l := fun h hn c hc =>
    (hs c (h c hc)).resolve_right fun e => hn (e ▸ hc)
  have huniq : ∀ {a b a' b' : List Char}, '.' ∉ a → '.' ∉ a' → a ++ '.' :: b = a' ++ '.' :: b' →
      a = a' ∧ b = b' := by
    intro a
    induction a with
    | nil =>
      intro b a' b' _ ha' h
      cases a' with
      | nil => simpa using h
      | cons x xs =>
        simp only [List.nil_append, List.cons_append, List.cons.injEq] at h
        exact absurd (h.1 ▸ List.mem_cons_self) ha'
    | cons x xs ih =>
      intro b a' b' ha ha' h
      cases a' with
      | nil =>
        simp only [List.nil_append, List.cons_append, List.cons.injEq] at h
        exact absurd (h.1 ▸ List.mem_cons_self) ha
      | cons y ys =>
        simp only [List.cons_append, List.cons.injEq] at h
        obtain ⟨h1, h2⟩ := ih (fun hm => ha (by simp [hm])) (fun hm => ha' (by simp [hm])) h.2
        exact ⟨by rw [h.1, h1], h2⟩
  unfold parseUnsigned
  rcases split_dot s with ⟨ip, fp, h1, h2, h3, h4⟩ | ⟨h1, h2, h3⟩
  · dsimp only
    rw [h3, h4]
    have hip : Digits ip := hdig (fun c hc => by rw [h1]; simp [hc]) h2
    dsimp only
    by_cases hd : '.' ∈ fp
    · rw [if_pos (by simpa using hd)]
      refine ⟨fun h => (by cases h), ?_⟩
      rintro ⟨a, b, ha, hb, -, -, h | ⟨h, -⟩⟩
      · rw [h1] at h
        obtain ⟨-, rfl⟩ := huniq h2 (digits_no_dot ha) h
        exact absurd hd (digits_no_dot hb)
      · refine absurd ?_ (digits_no_dot ha)
        rw [← h, h1]; simp
    · have hfp : Digits fp := hdig (fun c hc => by rw [h1]; simp [hc]) hd
      rw [if_neg (by simpa using hd)]
      have hval : (digitsVal (ip ++ fp) 0 : Rat) / 10 ^ fp.length = intVal ip + fracVal fp := by
        rw [digitsVal_eq 0 (fun c hc => (List.mem_append.1 hc).elim (hip c) (hfp c)),
          intVal_append, fracVal_eq]
        field_simp
        push_cast
        ring
      split
      · rename_i he
        refine ⟨fun h => (by cases h), ?_⟩
        rintro ⟨a, b, ha, hb, hne, -, h | ⟨h, -⟩⟩
        · rw [h1] at h
          obtain ⟨rfl, rfl⟩ := huniq h2 (digits_no_dot ha) h
          exact absurd (by rw [he.1, he.2]; rfl) hne
        · refine absurd ?_ (digits_no_dot ha)
          rw [← h, h1]; simp
      · rename_i he
        rw [hval, Option.some.injEq]
        constructor
        · rintro rfl
          exact ⟨ip, fp, hip, hfp, fun h => he (List.append_eq_nil_iff.1 h), rfl, .inl h1⟩
        · rintro ⟨a, b, ha, hb, hne, rfl, h | ⟨h, -⟩⟩
          · rw [h1] at h
            obtain ⟨rfl, rfl⟩ := huniq h2 (digits_no_dot ha) h
            rfl
          · refine absurd ?_ (digits_no_dot ha)
            rw [← h, h1]; simp
  · dsimp only
    rw [h2, h3]
    have hd : Digits s := hdig (fun c hc => hc) h1
    dsimp only
    split
    · rename_i he
      refine ⟨fun h => (by cases h), ?_⟩
      rintro ⟨a, b, ha, hb, hne, -, h | ⟨h, rfl⟩⟩
      · rw [he] at h; simp at h
      · rw [← h, he] at hne; simp at hne
    · rename_i he
      rw [Option.some.injEq, digitsVal_eq 0 hd]
      constructor
      · rintro rfl
        exact ⟨s, [], hd, fun c hc => by simp at hc, by simpa using he,
          by simp [fracVal], .inr ⟨rfl, rfl⟩⟩
      · rintro ⟨a, b, ha, hb, hne, rfl, h | ⟨h, rfl⟩⟩
        · refine absurd ?_ h1
          rw [h]; simp
        · rw [h]; simp [fracVal]

theorem denotesU_iff {s : List Char} (hs : ∀ c ∈ s, ('0' ≤ c ∧ c ≤ '9') ∨ c = '.') :
    (∃ q, DenotesU s q) ↔ s.count '.' ≤ 1 ∧ ∃ c ∈ s, '0' ≤ c ∧ c ≤ '9' := by
  have hdig : ∀ {l : List Char}, (∀ c ∈ l, c ∈ s) → '.' ∉ l → Digits l := fun h hn c hc =>
    (hs c (h c hc)).resolve_right fun e => hn (e ▸ hc)
  constructor
  · rintro ⟨q, a, b, ha, hb, hne, -, rfl | ⟨rfl, rfl⟩⟩
    · refine ⟨?_, ?_⟩
      · rw [List.count_append, List.count_cons_self,
          List.count_eq_zero.2 (digits_no_dot ha), List.count_eq_zero.2 (digits_no_dot hb)]
      · obtain ⟨c, hc⟩ := List.exists_mem_of_ne_nil _ hne
        refine ⟨c, ?_, (List.mem_append.1 hc).elim (ha c) (hb c)⟩
        rcases List.mem_append.1 hc with h | h <;> simp [h]
    · rw [List.append_nil] at hne
      obtain ⟨c, hc⟩ := List.exists_mem_of_ne_nil _ hne
      exact ⟨by rw [List.count_eq_zero.2 (digits_no_dot ha)]; omega, c, hc, ha c hc⟩
  · rintro ⟨h1, c, hc, hd⟩
    have hcd : c ≠ '.' := by rintro rfl; revert hd; decide
    rcases split_dot s with ⟨ip, fp, h2, h3, -, -⟩ | ⟨h2, -, -⟩
    · have hfp : '.' ∉ fp := by
        rw [h2, List.count_append, List.count_cons_self] at h1
        exact List.count_eq_zero.1 (by omega)
      refine ⟨_, ip, fp, hdig (fun c hc => by rw [h2]; simp [hc]) h3,
        hdig (fun c hc => by rw [h2]; simp [hc]) hfp, ?_, rfl, .inl h2⟩
      intro he
      obtain ⟨rfl, rfl⟩ := List.append_eq_nil_iff.1 he
      rw [h2] at hc
      simp [hcd] at hc
    · exact ⟨_, s, [], hdig (fun c hc => hc) h2, fun c hc => by simp at hc,
        by rw [List.append_nil]; exact List.ne_nil_of_mem hc, rfl, .inr ⟨rfl, rfl⟩⟩

namespace Props

/-- **C61.** The number of a word is read as its decimal value: `float()` accepts a text of the
form `[-+]?[0-9.]+` exactly when it is a decimal number, and returns its value. -/
theorem C61_decimal_value (t : List Char) (ht : NumText t) (q : Rat) :
    parseFloat t = some q ↔ Denotes t q := by
  obtain ⟨sign, ds, rfl, hs, hne, hd⟩ := ht
  have hhead : ∀ c ∈ ds, c ≠ '-' ∧ c ≠ '+' := by
    intro c hc
    constructor <;> rintro rfl <;> rcases hd _ hc with h | h <;> revert h <;> decide
  have hnu : ∀ (s : Char) (q : Rat) (l : List Char), s ≠ '.' → ¬('0' ≤ s ∧ s ≤ '9') →
      ¬ DenotesU (s :: l) q := by
    rintro s q l h1 h2 ⟨a, b, ha, hb, hne, -, h | ⟨h, -⟩⟩
    · cases a with
      | nil => simp only [List.nil_append, List.cons.injEq] at h; exact h1 h.1
      | cons x xs =>
        simp only [List.cons_append, List.cons.injEq] at h
        exact h2 (h.1 ▸ ha x (by simp))
    · exact h2 (ha s (by rw [← h]; simp))
  rcases hs with rfl | rfl | rfl
  · obtain ⟨c, cs, rfl⟩ := List.exists_cons_of_ne_nil hne
    have hc := hhead c (by simp)
    rw [List.nil_append, parseFloat, if_neg hc.1, if_neg hc.2, unsigned_iff hd]
    refine ⟨.inl, ?_⟩
    rintro (h | ⟨t, h, -⟩ | ⟨t, h, -⟩)
    · exact h
    · exact absurd (List.cons.inj h).1 hc.2
    · exact absurd (List.cons.inj h).1 hc.1
  · rw [List.cons_append, List.nil_append, parseFloat, if_pos rfl, Option.map_eq_some_iff]
    constructor
    · rintro ⟨a, h, rfl⟩
      exact .inr (.inr ⟨ds, rfl, by rw [neg_neg]; exact (unsigned_iff hd a).1 h⟩)
    · rintro (h | ⟨t, h, -⟩ | ⟨t, h, h'⟩)
      · exact absurd h (hnu _ _ _ (by decide) (by decide))
      · exact absurd (List.cons.inj h).1 (by decide)
      · obtain rfl := (List.cons.inj h).2
        exact ⟨-q, (unsigned_iff hd _).2 h', by ring⟩
  · rw [List.cons_append, List.nil_append, parseFloat, if_neg (by decide), if_pos rfl,
      unsigned_iff hd]
    refine ⟨fun h => .inr (.inl ⟨ds, rfl, h⟩), ?_⟩
    rintro (h | ⟨t, h, h'⟩ | ⟨t, h, -⟩)
    · exact absurd h (hnu _ _ _ (by decide) (by decide))
    · obtain rfl := (List.cons.inj h).2
      exact h'
    · exact absurd (List.cons.inj h).1 (by decide)

/-- **C61.** `float()` raises `ValueError` exactly for the texts that are no decimal number: those
without a digit or with two points. -/
theorem C61_value_error (t : List Char) (ht : NumText t) : parseFloat t = none ↔ ¬ Decimal t := by
  have key : Decimal t ↔ ∃ q, Denotes t q := by
    obtain ⟨sign, ds, e, hs, hne, hd⟩ := id ht
    have hu := denotesU_iff hd
    have hq : (∃ q, Denotes t q) ↔ ∃ q, DenotesU ds q := by
      rw [show (∃ q, Denotes t q) ↔ ∃ q, parseFloat t = some q from
          exists_congr fun q => (C61_decimal_value t ht q).symm,
        show (∃ q, DenotesU ds q) ↔ ∃ q, parseUnsigned ds = some q from
          exists_congr fun q => (unsigned_iff hd q).symm, e]
      rcases hs with rfl | rfl | rfl
      · obtain ⟨c, cs, rfl⟩ := List.exists_cons_of_ne_nil hne
        have hc : c ≠ '-' ∧ c ≠ '+' := by
          constructor <;> rintro rfl <;> rcases hd _ List.mem_cons_self with h | h <;>
            revert h <;> decide
        rw [List.nil_append, parseFloat, if_neg hc.1, if_neg hc.2]
      · rw [List.cons_append, List.nil_append, parseFloat, if_pos rfl]
        simp only [Option.map_eq_some_iff]
        exact ⟨fun ⟨_, a, h, _⟩ => ⟨a, h⟩, fun ⟨a, h⟩ => ⟨_, a, h, rfl⟩⟩
      · rw [List.cons_append, List.nil_append, parseFloat, if_neg (by decide), if_pos rfl]
    rw [hq, hu]
    unfold Decimal
    have h1 : t.count '.' = ds.count '.' := by
      rw [e, List.count_append]
      rcases hs with rfl | rfl | rfl <;> simp
    have h2 : (∃ c ∈ t, '0' ≤ c ∧ c ≤ '9') ↔ ∃ c ∈ ds, '0' ≤ c ∧ c ≤ '9' := by
      rw [e]
      constructor
      · rintro ⟨c, hc, h⟩
        refine ⟨c, (List.mem_append.1 hc).resolve_left fun hm => ?_, h⟩
        rcases hs with rfl | rfl | rfl
        · cases hm
        · rw [List.mem_singleton] at hm; subst hm; revert h; decide
        · rw [List.mem_singleton] at hm; subst hm; revert h; decide
      · rintro ⟨c, hc, h⟩
        exact ⟨c, List.mem_append.2 (.inr hc), h⟩
    rw [h1, h2]
    exact and_iff_right ht
  rw [key]
  constructor
  · rintro h ⟨q, hq⟩
    rw [(C61_decimal_value t ht q).2 hq] at h
    cases h
  · intro h
    rcases hp : parseFloat t with _ | q
    · rfl
    · exact absurd ⟨q, (C61_decimal_value t ht q).1 hp⟩ h

/-- `-12.50` is the number -12.5; `1.2.3` and `.` are no numbers. -/
example : Denotes "-12.50".toList (-12.5) ∧ NumText "-12.50".toList ∧ NumText "1.2.3".toList ∧
    ¬ Decimal "1.2.3".toList := by
  refine ⟨.inr (.inr ⟨"12.50".toList, rfl, "12".toList, "50".toList, ?_, ?_,
    by decide, ?_, .inl rfl⟩), ⟨['-'], "12.50".toList, rfl, .inr (.inl rfl), by decide, by decide⟩,
    ⟨[], "1.2.3".toList, rfl, .inl rfl, by decide, by decide⟩, ?_⟩
  · unfold Digits; decide
  · unfold Digits; decide
  · have h1 : intVal ['1', '2'] = 12 := by norm_num [intVal, digit, show '1'.toNat = 49 from rfl, show '2'.toNat = 50 from rfl]
    have h2 : fracVal ['5', '0'] = 0.5 := by 
      norm_num [fracVal, digit, show '5'.toNat = 53 from rfl, show '0'.toNat = 48 from rfl]
    have e1 : "12".toList = ['1', '2'] := by decide
    have e2 : "50".toList = ['5', '0'] := by decide
    rw [e1, e2, h1, h2]
    norm_num
  · rintro ⟨-, h, -⟩
    revert h
    decide

end Props

end PyCNC
