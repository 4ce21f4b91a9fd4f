import Verif.Spec.Motor
import Verif.Lemmas.HalMove

/-!
# A driver that sees what `move` plays makes the steps of the events
-/

namespace PyCNC

open Spec

variable {F : Type}

namespace Driver

variable {p : Pins} {ax : Axis}

theorem sees_append (d : Driver) (a b : List Edge) :
    d.sees p ax (a ++ b) = (d.sees p ax a).sees p ax b := by
  simp [Driver.sees, List.foldl_append]

theorem sees_nil (d : Driver) : d.sees p ax [] = d := rfl

theorem sees_cons (d : Driver) (e : Edge) (es : List Edge) :
    d.sees p ax (e :: es) = (d.edge (p.step.get ax) (p.dir.get ax) e).sees p ax es := rfl

/-- Changes of other pins are not seen. -/
theorem edge_other {d : Driver} {t : Nat} {lvl : Bool} {m : Word}
    (h1 : m.getLsbD (p.step.get ax) = false) (h2 : m.getLsbD (p.dir.get ax) = false) :
    d.edge (p.step.get ax) (p.dir.get ax) (t, lvl, m) = d := by
  simp [Driver.edge, h1, h2]

/-- Changes of direction pins. -/
theorem sees_dirEdge {d : Driver} {t : Nat} {lvl : Bool} {m : Word}
    (h1 : m.getLsbD (p.step.get ax) = false) :
    d.sees p ax (Spec.edge t lvl m) =
      { d with dir := if m.getLsbD (p.dir.get ax) then lvl else d.dir } := by
  unfold Spec.edge
  split
  · rename_i h
    subst h
    simp [sees_nil]
  · rw [sees_cons, sees_nil]
    simp [Driver.edge, h1]

end Driver

/-- The level of the direction input as a sign. -/
def dirSign (b : Bool) : Int := if b then -1 else 1

theorem covers_false {m : Word} {P : Nat → Prop} {q : Nat} (h : Covers m P) (hq : q < 32)
    (hn : ¬ P q) : m.getLsbD q = false := by
  cases hm : m.getLsbD q
  · rfl
  · exact absurd ((h q hq).1 hm) hn

theorem along_add (c : Cfg) (ax : Axis) (a b : Int) :
    along c ax (a + b) = along c ax a + along c ax b := by
  unfold along; split <;> omega

theorem netFrom_pulse (c : Cfg) (ax : Axis) (d : Int) (x : V4 (Option F)) (evs : List (Event F)) :
    netFrom c ax d (.pulse x :: evs) =
      (if (x.get ax).isSome then d else 0) + netFrom c ax d evs := by
  cases h : x.get ax <;> simp [netFrom, h]

/-- What a driver does with a program that plays the events. -/
theorem plays_driver {c : Cfg} {p : Pins} (hp : PinsOk p) (ha : PinsApart p) (ax : Axis)
    {len t : Nat} {evs : List (Event F)} {es : List Edge} {Ts : List Nat}
    (h : Plays p len t evs es Ts) (hd : DirsKnown evs) {d : Driver} (h0 : d.step = false) :
    (d.sees p ax es).step = false ∧
      along c ax (d.sees p ax es).pos =
        along c ax d.pos + netFrom c ax (along c ax (dirSign d.dir)) evs := by
  induction h generalizing d with
  | nil t => simp [Driver.sees_nil, h0, netFrom]
  | @dir t v hi lo evs es Ts hhi hlo rest ih =>
    have hs := (hp ax).1
    have hdd := (hp ax).2
    have e1 : hi.getLsbD (p.step.get ax) = false :=
      covers_false hhi hs (by rintro ⟨ax', -, e⟩; exact ha.apart _ _ e.symm)
    have e2 : lo.getLsbD (p.step.get ax) = false :=
      covers_false hlo hs (by rintro ⟨ax', -, e⟩; exact ha.apart _ _ e.symm)
    have hv := hd v (by simp) ax
    have b1 : hi.getLsbD (p.dir.get ax) = true ↔ v.get ax < 0 := by
      rw [hhi _ hdd]
      constructor
      · rintro ⟨ax', h1, h2⟩; rw [← ha.dir _ _ h2]; exact h1
      · exact fun h1 => ⟨ax, h1, rfl⟩
    have b2 : lo.getLsbD (p.dir.get ax) = true ↔ 0 < v.get ax := by
      rw [hlo _ hdd]
      constructor
      · rintro ⟨ax', h1, h2⟩; rw [← ha.dir _ _ h2]; exact h1
      · exact fun h1 => ⟨ax, h1, rfl⟩
    rw [Driver.sees_append, Driver.sees_append, Driver.sees_dirEdge e1, Driver.sees_dirEdge e2]
    dsimp only
    obtain ⟨i1, i2⟩ := ih (fun w hw => hd w (List.mem_cons_of_mem _ hw))
      (d := { d with dir := if lo.getLsbD (p.dir.get ax) then false
        else if hi.getLsbD (p.dir.get ax) then true else d.dir }) h0
    refine ⟨i1, ?_⟩
    rw [i2]
    have hsign : dirSign (if lo.getLsbD (p.dir.get ax) then false
        else if hi.getLsbD (p.dir.get ax) then true else d.dir) = v.get ax := by
      rcases hv with h1 | h1
      · have : lo.getLsbD (p.dir.get ax) = true := b2.2 (by omega)
        simp [dirSign, this, h1]
      · have l1 : ¬ lo.getLsbD (p.dir.get ax) = true := fun h => by have := b2.1 h; omega
        have l2 : hi.getLsbD (p.dir.get ax) = true := b1.2 (by omega)
        simp [dirSign, l1, l2, h1]
    dsimp only
    rw [hsign]
    rfl
  | @pulse t T x m evs es Ts hT hm hm0 rest ih =>
    have hs := (hp ax).1
    have hdd := (hp ax).2
    have e1 : m.getLsbD (p.dir.get ax) = false :=
      covers_false hm hdd (by rintro ⟨ax', -, e⟩; exact ha.apart _ _ e)
    have b1 : m.getLsbD (p.step.get ax) = true ↔ (x.get ax).isSome = true := by
      rw [hm _ hs]
      constructor
      · rintro ⟨ax', h1, h2⟩; rw [← ha.step _ _ h2]; exact h1
      · exact fun h1 => ⟨ax, h1, rfl⟩
    have hd' : DirsKnown evs := fun w hw => hd w (List.mem_cons_of_mem _ hw)
    rw [Driver.sees_cons, Driver.sees_cons, netFrom_pulse]
    by_cases hx : (x.get ax).isSome = true
    · have hb := b1.2 hx
      have : (d.edge (p.step.get ax) (p.dir.get ax) (T, true, m)).edge (p.step.get ax)
          (p.dir.get ax) (T + len, false, m) =
          ⟨false, d.dir, d.pos + dirSign d.dir⟩ := by
        simp [Driver.edge, hb, e1, h0, dirSign]
      rw [this]
      obtain ⟨i1, i2⟩ := ih hd' (d := ⟨false, d.dir, d.pos + dirSign d.dir⟩) rfl
      refine ⟨i1, ?_⟩
      rw [i2, if_pos hx, along_add]
      dsimp only
      omega
    · have hb : m.getLsbD (p.step.get ax) = false := by
        cases hq : m.getLsbD (p.step.get ax)
        · rfl
        · exact absurd (b1.1 hq) hx
      rw [Driver.edge_other hb e1, Driver.edge_other hb e1]
      obtain ⟨i1, i2⟩ := ih hd' h0
      exact ⟨i1, by rw [i2, if_neg hx]; omega⟩

end PyCNC
