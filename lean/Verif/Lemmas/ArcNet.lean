import Verif.Lemmas.ArcBuild

/-!
# The pulses of ordinary arcs
-/

set_option linter.unusedSectionVars false

namespace PyCNC

open Spec Real

variable [PyRound]

variable {c : Cfg} {delta radius : V4 ℝ} {plane : Plane} {v : ℝ} {rot : Rot} {g : CircGen ℝ}

theorem sign1_eq (x : ℝ) : sign1 x = if x < 0 then -1 else 1 := by
  unfold sign1
  simp

theorem turnsAs_dirs {a b p q : ℝ} {A B : ℤ} (hne : a ^ 2 + b ^ 2 ≠ 0) (hp : 0 < p) (hq : 0 < q)
    (hA : a * p = A) (hB : b * q = B) (rot : Rot) :
    TurnsAs rot a b (dirA rot (arcQuarter a b) B) (dirB rot (arcQuarter a b) A) := by
  have hs := arcQuarter_signs hne hp hq hA hB
  have a1 := (on_sgn hp hA).2
  have b1 := (on_sgn hq hB).2
  have a2 := (on_sgn hp (on_neg hA)).2
  have b2 := (on_sgn hq (on_neg hB)).2
  rw [neg_pos, neg_pos] at a2 b2
  cases rot <;> simp only [TurnsAs, dirA, dirB] <;> rw [← a1, ← b1, ← a2, ← b2] <;>
    unfold Signs at hs <;> generalize arcQuarter a b = qq at * <;>
    refine ⟨fun h => ?_, fun h => ?_, fun h => ?_, fun h => ?_⟩ <;> split <;> omega

open scoped Classical in
/-- The integers of a generator that was built for an arc on steps. -/
theorem arc_gen (h : GridArc c delta radius plane)
    (hg : CircGen.new c delta radius plane rot v = .ok g) :
    g.plane = plane ∧
    ∃ R RB A B EA EB : ℤ, ArcInts (startA plane radius) (startB plane radius)
        (endA plane delta radius) (endB plane delta radius) (c.ppm.get (axisA plane))
        (c.ppm.get (axisB plane)) R RB A B EA EB ∧
      g.radiusAP = R ∧ g.radiusBP = RB ∧ g.startAP = A ∧ g.startBP = B ∧ 0 < R ∧ 0 < RB ∧
      PyRound.rnd (startDist plane radius * c.ppm.get (axisA plane)) = R ∧
      PyRound.rnd (startDist plane radius * c.ppm.get (axisB plane)) = RB ∧
      TurnsAs rot (startA plane radius) (startB plane radius) g.dirA g.dirB ∧
      (g.dirA = 1 ∨ g.dirA = -1) ∧ (g.dirB = 1 ∨ g.dirB = -1) ∧
      g.itA ≤ 4 * R ∧ g.itB ≤ 4 * RB ∧
      (walk R A g.dirA g.itA.toNat).1 = (if BackInQuarter plane delta radius then A else EA) ∧
      (walk RB B g.dirB g.itB.toNat).1 = (if BackInQuarter plane delta radius then B else EB) := by
  obtain ⟨φs, φe, hf⟩ := new_facts hg
  obtain ⟨R, RB, A, B, EA, EB, hi, r1, r2, r3, r4, p1, p2, hits, q1, q2, _, _⟩ := arc_ints h hf
  have hs := hf.angS
  have he := hf.angE
  rw [arcSA_eq, arcSB_eq] at hs
  rw [arcEA_eq, arcEB_eq] at he
  obtain ⟨s0, s1, sA, sB, sr⟩ := angle_ok hs
  have hd := hf.dirs
  rw [startDirs_eq sr s0 s1 sA sB hi.hp hi.hq hi.hA hi.hB rot] at hd
  have hdA : g.dirA = _ := congrArg Prod.fst hd
  have hdB : g.dirB = _ := congrArg Prod.snd hd
  simp only at hdA hdB
  have oA : g.dirA = 1 ∨ g.dirA = -1 := by rw [hdA]; exact dirA_or _ _ _
  have oB : g.dirB = 1 ∨ g.dirB = -1 := by rw [hdB]; exact dirB_or _ _ _
  refine ⟨hf.plane_eq, R, RB, A, B, EA, EB, hi, r1, r2, r3, r4, p1, p2, q1, q2, ?_, oA, oB, ?_⟩
  · rw [hdA, hdB]
    exact turnsAs_dirs (angle_ne hs) hi.hp hi.hq hi.hA hi.hB rot
  rcases its_cases hi hs he rot with ⟨hb, hx⟩ | ⟨nb, _, n, m, hx, b1, b2, b3, b4, w1, w2⟩
  · rw [hx] at hits
    have e1 : g.itA = 4 * R := congrArg Prod.fst hits
    have e2 : g.itB = 4 * RB := congrArg Prod.snd hits
    rw [e1, e2, walk_full hi.rA.1 hi.rA.2 oA, walk_full hi.rB.1 hi.rB.2 oB]
    refine ⟨le_refl _, le_refl _, ?_⟩
    by_cases hq : BackInQuarter plane delta radius
    · rw [if_pos hq, if_pos hq]; exact ⟨rfl, rfl⟩
    · rw [if_neg hq, if_neg hq]
      rcases hb with hb | hb
      · exact absurd hb hq
      · obtain ⟨x1, x2⟩ := hi.same hb.1 hb.2
        exact ⟨x1.symm, x2.symm⟩
  · rw [hx] at hits
    have e1 : g.itA = turned rot R n := congrArg Prod.fst hits
    have e2 : g.itB = turned rot RB m := congrArg Prod.snd hits
    change ¬ BackInQuarter plane delta radius at nb
    rw [if_neg nb, if_neg nb, e1, e2, hdA, hdB]
    refine ⟨?_, ?_, w1, w2⟩ <;> unfold turned <;> cases rot <;> simp only <;> omega

open scoped Classical in
/-- Net pulses at the end. -/
theorem arc_net (h : GridArc c delta radius plane)
    (hg : CircGen.new c delta radius plane rot v = .ok g) {evs : List (Event ℝ)}
    (he : Emits c (.circular g) evs) :
    (netSteps c (axisA plane) evs : ℝ) = (if BackInQuarter plane delta radius then 0 else
      delta.get (axisA plane) * c.ppm.get (axisA plane)) ∧
    (netSteps c (axisB plane) evs : ℝ) = (if BackInQuarter plane delta radius then 0 else
      delta.get (axisB plane) * c.ppm.get (axisB plane)) := by
  obtain ⟨rfl, R, RB, A, B, EA, EB, hi, rfl, rfl, rfl, rfl, p1, p2, q1, q2, -, oA, oB, i1, i2, w1, w2⟩ :=
    arc_gen h hg
  obtain ⟨N, hN⟩ := he
  have hN := hN N le_rfl
  obtain ⟨a1, a2, a3⟩ := circ_run_a c g N hi.rA.1 hi.rA.2 oA i1
  obtain ⟨b1, b2, b3⟩ := circ_run_b c g N hi.rB.1 hi.rB.2 oB i2
  rw [hN] at a1 a3 b1 b3
  rw [a3 rfl, w1] at a1
  rw [b3 rfl, w2] at b1
  have hA := hi.hA
  have hB := hi.hB
  have hEA := hi.hEA
  have hEB := hi.hEB
  unfold startA at hA
  unfold startB at hB
  unfold endA at hEA
  unfold endB at hEB
  simp only at a1 b1
  rw [a1, b1]
  split
  · simp
  · push_cast
    constructor <;> linarith

/-- Pulses of the other two axes. -/
theorem arc_other (hg : CircGen.new c delta radius plane rot v = .ok g) {evs : List (Event ℝ)}
    (he : Emits c (.circular g) evs) (ax : Axis) (hax : ax = axis3 plane ∨ ax = .e) :
    (steps ax evs : ℤ) = ⌈|delta.get ax| * c.ppm.get ax⌉₊ ∧
    netSteps c ax evs = if delta.get ax < 0 then -(steps ax evs : ℤ) else (steps ax evs : ℤ) := by
  obtain ⟨φs, φe, hf⟩ := new_facts hg
  obtain ⟨N, hN⟩ := he
  have hN := hN N le_rfl
  have h3 := circ_run_3 c g N
  have hE := circ_run_e c g N
  have s3 := (circ_steps_3 c g N ⌈g.it3⌉₊ fun i => by
    rw [le_false_iff, ofInt_eq, Int.cast_natCast, Nat.lt_ceil]).2
  have sE := (circ_steps_e c g N ⌈g.itE⌉₊ fun i => by
    rw [le_false_iff, ofInt_eq, Int.cast_natCast, Nat.lt_ceil]).2
  rw [hf.plane_eq] at h3 s3
  rw [hN] at h3 hE s3 sE
  rcases hax with rfl | rfl
  · rw [h3, s3 rfl, hf.dir3, hf.it3, planeAxes_eq, planeAxes_eq, sign1_eq]
    refine ⟨by simp, ?_⟩
    split <;> simp
  · rw [hE, sE rfl, hf.dirE, hf.itE, sign1_eq]
    refine ⟨by simp [V4.get], ?_⟩
    change _ = if delta.e < 0 then _ else _
    split <;> simp

end PyCNC
