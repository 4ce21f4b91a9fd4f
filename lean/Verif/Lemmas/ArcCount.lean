import Verif.Lemmas.Arc

/-!
# The numbers of pulses of an arc: integers only
-/

namespace PyCNC

open Spec

theorem walk_up {R s : Int} {k : Nat} (h1 : -R ≤ s) (h2 : s ≤ R) (hk : (k : Int) ≤ 4 * R) :
    (walk R s 1 k).1 = if s + k ≤ R then s + k else if s + k ≤ 3 * R then 2 * R - s - k
      else s + k - 4 * R := by
  rw [← helper_walk (side := true) k h1 h2 (.inl rfl) hk]
  simp only
  rw [helper_up h1 h2 (by omega) hk]
  split
  · rfl
  · split <;> rfl

theorem walk_down {R s : Int} {k : Nat} (h1 : -R ≤ s) (h2 : s ≤ R) (hk : (k : Int) ≤ 4 * R) :
    (walk R s (-1) k).1 = if -R ≤ s - k then s - k else if -(3 * R) ≤ s - k then -2 * R - s + k
      else s - k + 4 * R := by
  rw [← helper_walk (side := true) k h1 h2 (.inr rfl) hk]
  simp only
  rw [helper_down h2 (by omega)]
  split
  · rfl
  · split <;> rfl

/-- A full turn ends at the start. -/
theorem walk_full {R s d : Int} (h1 : -R ≤ s) (h2 : s ≤ R) (hd : d = 1 ∨ d = -1) :
    (walk R s d (4 * R).toNat).1 = s := by
  rcases hd with rfl | rfl
  · rw [walk_up h1 h2 (by omega)]
    split_ifs <;> omega
  · rw [walk_down h1 h2 (by omega)]
    split_ifs <;> omega

/-- The directions of the first axis at the start of an arc from the point (`a`, `b`) of the
quarter `q`. -/
def dirA (rot : Rot) (q : Int) (b : Int) : Int :=
  match rot with
  | .cw => if q = 1 ∨ q = 2 then -1 else 1
  | .ccw => if q = 0 ∨ (q = 1 ∧ b = 0) ∨ (q = 3 ∧ b ≠ 0) then -1 else 1

/-- The directions of the second axis. -/
def dirB (rot : Rot) (q : Int) (a : Int) : Int :=
  match rot with
  | .cw => if q = 2 ∨ q = 3 then 1 else -1
  | .ccw => if (q = 0 ∧ a ≠ 0) ∨ q = 1 ∨ (q = 2 ∧ a = 0) then 1 else -1

theorem dirA_or (rot : Rot) (q b : Int) : dirA rot q b = 1 ∨ dirA rot q b = -1 := by
  unfold dirA; cases rot <;> simp only <;> split_ifs <;> simp

theorem dirB_or (rot : Rot) (q b : Int) : dirB rot q b = 1 ∨ dirB rot q b = -1 := by
  unfold dirB; cases rot <;> simp only <;> split_ifs <;> simp

/-- What the signs of a point of quarter `q` are. -/
def Signs (q a b : Int) : Prop :=
  (q = 0 ∧ 0 ≤ a ∧ 0 < b) ∨ (q = 1 ∧ 0 < a ∧ b ≤ 0) ∨ (q = 2 ∧ a ≤ 0 ∧ b < 0) ∨
    (q = 3 ∧ a < 0 ∧ 0 ≤ b)

/-- `4 * n - it` for counterclockwise moves. -/
def turned (rot : Rot) (R n : Int) : Int :=
  match rot with
  | .cw => n
  | .ccw => 4 * R - n

/-- Distance travelled by the first axis since angle zero. -/
def unrollA (R q a : Int) : Int :=
  if q = 0 then a else if q = 1 ∨ q = 2 then 2 * R - a else 4 * R + a

/-- Distance travelled by the second axis since angle zero. -/
def unrollB (R q b : Int) : Int :=
  if q = 0 ∨ q = 1 then R - b else 3 * R + b

theorem fold_a {qs qe w R RB A B EA EB : Int} (hs : Signs qs A B) (he : Signs qe EA EB)
    (hw : w = 0 ∨ w = 4) (h1 : qs < qe + w) (h2 : qe + w - qs < 4) :
    ((pyRange qs (qe + w + 1)).foldl (quarterStep qs (qe + w) R RB |A| |B| |EA| |EB|) (0, 0)).1 =
      unrollA R qe EA + w * R - unrollA R qs A ∧
    ((pyRange qs (qe + w + 1)).foldl (quarterStep qs (qe + w) R RB |A| |B| |EA| |EB|) (0, 0)).2 =
      unrollB RB qe EB + w * RB - unrollB RB qs B := by
  have hA : |A| = if 0 ≤ A then A else -A := by
    split
    · rw [abs_of_nonneg (by assumption)]
    · rw [abs_of_neg (by omega)]
  have hB : |B| = if 0 ≤ B then B else -B := by
    split
    · rw [abs_of_nonneg (by assumption)]
    · rw [abs_of_neg (by omega)]
  have hEA : |EA| = if 0 ≤ EA then EA else -EA := by
    split
    · rw [abs_of_nonneg (by assumption)]
    · rw [abs_of_neg (by omega)]
  have hEB : |EB| = if 0 ≤ EB then EB else -EB := by
    split
    · rw [abs_of_nonneg (by assumption)]
    · rw [abs_of_neg (by omega)]
  generalize |A| = a at *
  generalize |B| = b at *
  generalize |EA| = ea at *
  generalize |EB| = eb at *
  rcases hs with ⟨rfl, s1, s2⟩ | ⟨rfl, s1, s2⟩ | ⟨rfl, s1, s2⟩ | ⟨rfl, s1, s2⟩ <;>
  rcases he with ⟨rfl, e1, e2⟩ | ⟨rfl, e1, e2⟩ | ⟨rfl, e1, e2⟩ | ⟨rfl, e1, e2⟩ <;>
  rcases hw with rfl | rfl <;> (try omega) <;>
  · simp [pyRange, List.range_succ, quarterStep, unrollA, unrollB]
    constructor <;> (split_ifs at hA hB hEA hEB <;> omega)

/-- The distances between two points less than a turn apart. -/
theorem unroll_range {qs qe w R RB A B EA EB : Int} (hs : Signs qs A B) (he : Signs qe EA EB)
    (hA : -R ≤ A ∧ A ≤ R) (hEA : -R ≤ EA ∧ EA ≤ R) (hB : -RB ≤ B ∧ B ≤ RB)
    (hEB : -RB ≤ EB ∧ EB ≤ RB)
    (hw : w = 0 ∨ w = 4) (h1 : qs < qe + w) (h2 : qe + w - qs < 4) :
    (0 ≤ unrollA R qe EA + w * R - unrollA R qs A ∧
      unrollA R qe EA + w * R - unrollA R qs A ≤ 4 * R) ∧
    0 ≤ unrollB RB qe EB + w * RB - unrollB RB qs B ∧
      unrollB RB qe EB + w * RB - unrollB RB qs B ≤ 4 * RB := by
  rcases hs with ⟨rfl, s1, s2⟩ | ⟨rfl, s1, s2⟩ | ⟨rfl, s1, s2⟩ | ⟨rfl, s1, s2⟩ <;>
  rcases he with ⟨rfl, e1, e2⟩ | ⟨rfl, e1, e2⟩ | ⟨rfl, e1, e2⟩ | ⟨rfl, e1, e2⟩ <;>
  rcases hw with rfl | rfl <;> (try omega) <;>
  · simp [unrollA, unrollB]
    omega

/-- Walking that distance leads to the end point. -/
theorem walk_a {qs qe w R A B EA EB : Int} {rot : Rot} (hs : Signs qs A B) (he : Signs qe EA EB)
    (hA : -R ≤ A ∧ A ≤ R) (hEA : -R ≤ EA ∧ EA ≤ R) (hB : B = 0 → A = R ∨ A = -R)
    (hw : w = 0 ∨ w = 4) (h1 : 0 ≤ unrollA R qe EA + w * R - unrollA R qs A)
    (h2 : unrollA R qe EA + w * R - unrollA R qs A ≤ 4 * R) :
    (walk R A (dirA rot qs B)
      (turned rot R (unrollA R qe EA + w * R - unrollA R qs A)).toNat).1 = EA := by
  generalize hn : unrollA R qe EA + w * R - unrollA R qs A = n at h1 h2 ⊢
  have hk : ((turned rot R n).toNat : Int) = turned rot R n := by
    unfold turned; cases rot <;> simp only <;> omega
  have hk4 : ((turned rot R n).toNat : Int) ≤ 4 * R := by
    rw [hk]; unfold turned; cases rot <;> simp only <;> omega
  have hup : dirA rot qs B = 1 → (walk R A (dirA rot qs B) (turned rot R n).toNat).1 =
      if A + turned rot R n ≤ R then A + turned rot R n
      else if A + turned rot R n ≤ 3 * R then 2 * R - A - turned rot R n
      else A + turned rot R n - 4 * R := fun hd => by
    rw [hd, walk_up hA.1 hA.2 hk4, hk]
  have hdown : dirA rot qs B = -1 → (walk R A (dirA rot qs B) (turned rot R n).toNat).1 =
      if -R ≤ A - turned rot R n then A - turned rot R n
      else if -(3 * R) ≤ A - turned rot R n then -2 * R - A + turned rot R n
      else A - turned rot R n + 4 * R := fun hd => by
    rw [hd, walk_down hA.1 hA.2 hk4, hk]
  generalize (walk R A (dirA rot qs B) (turned rot R n).toNat).1 = P at *
  clear hk hk4
  rcases hs with ⟨rfl, s1, s2⟩ | ⟨rfl, s1, s2⟩ | ⟨rfl, s1, s2⟩ | ⟨rfl, s1, s2⟩ <;>
  rcases he with ⟨rfl, e1, e2⟩ | ⟨rfl, e1, e2⟩ | ⟨rfl, e1, e2⟩ | ⟨rfl, e1, e2⟩ <;>
  rcases hw with rfl | rfl <;> cases rot <;>
  simp [unrollA, turned, dirA] at hn hup hdown <;>
  by_cases hb : B = 0 <;> simp [hb] at hup hdown hB <;> (try omega)

/-- The same for the second axis. -/
theorem walk_b {qs qe w R A B EA EB : Int} {rot : Rot} (hs : Signs qs A B) (he : Signs qe EA EB)
    (hA : -R ≤ B ∧ B ≤ R) (hEA : -R ≤ EB ∧ EB ≤ R) (hB : A = 0 → B = R ∨ B = -R)
    (hw : w = 0 ∨ w = 4) (h1 : 0 ≤ unrollB R qe EB + w * R - unrollB R qs B)
    (h2 : unrollB R qe EB + w * R - unrollB R qs B ≤ 4 * R) :
    (walk R B (dirB rot qs A)
      (turned rot R (unrollB R qe EB + w * R - unrollB R qs B)).toNat).1 = EB := by
  generalize hn : unrollB R qe EB + w * R - unrollB R qs B = n at h1 h2 ⊢
  have hk : ((turned rot R n).toNat : Int) = turned rot R n := by
    unfold turned; cases rot <;> simp only <;> omega
  have hk4 : ((turned rot R n).toNat : Int) ≤ 4 * R := by
    rw [hk]; unfold turned; cases rot <;> simp only <;> omega
  have hup : dirB rot qs A = 1 → (walk R B (dirB rot qs A) (turned rot R n).toNat).1 =
      if B + turned rot R n ≤ R then B + turned rot R n
      else if B + turned rot R n ≤ 3 * R then 2 * R - B - turned rot R n
      else B + turned rot R n - 4 * R := fun hd => by
    rw [hd, walk_up hA.1 hA.2 hk4, hk]
  have hdown : dirB rot qs A = -1 → (walk R B (dirB rot qs A) (turned rot R n).toNat).1 =
      if -R ≤ B - turned rot R n then B - turned rot R n
      else if -(3 * R) ≤ B - turned rot R n then -2 * R - B + turned rot R n
      else B - turned rot R n + 4 * R := fun hd => by
    rw [hd, walk_down hA.1 hA.2 hk4, hk]
  generalize (walk R B (dirB rot qs A) (turned rot R n).toNat).1 = P at *
  clear hk hk4
  rcases hs with ⟨rfl, s1, s2⟩ | ⟨rfl, s1, s2⟩ | ⟨rfl, s1, s2⟩ | ⟨rfl, s1, s2⟩ <;>
  rcases he with ⟨rfl, e1, e2⟩ | ⟨rfl, e1, e2⟩ | ⟨rfl, e1, e2⟩ | ⟨rfl, e1, e2⟩ <;>
  rcases hw with rfl | rfl <;> cases rot <;>
  simp [unrollB, turned, dirB] at hn hup hdown <;>
  by_cases hb : A = 0 <;> simp [hb] at hup hdown hB <;> (try omega)

end PyCNC
