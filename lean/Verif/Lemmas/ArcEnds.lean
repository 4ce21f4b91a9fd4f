import Verif.Lemmas.ArcStream
import Verif.Lemmas.ArcInterp
import Verif.Lemmas.HalAbort
import Verif.Spec.ArcMotor

/-!
The hardware takes an arc to its end: the times of its pulses are close enough for the delays of the
DMA engine, and its program fits into the buffer.
-/

namespace PyCNC

open Spec Real

section Stream

variable [PyRound] {c : Cfg} {delta radius : V4 ℝ} {plane : Plane} {rot : Rot} {v : ℝ} {g : CircGen ℝ}

/-- Something is always sent. -/
theorem emits_ne_nil {g : Gen ℝ} {evs : List (Event ℝ)} (he : Emits c g evs) : evs ≠ [] := by
  obtain ⟨N, hN⟩ := he
  have h := hN (N + 1) (by omega)
  rcases run_succ c g N .init with ⟨e, h1, h2⟩ | ⟨h1, h2⟩ | ⟨ev, s', h1, h2⟩ <;> rw [h2] at h
  · cases h
  · unfold Gen.next at h1
    rcases hi : g.interp c GenState.init.it with e | ⟨d, t⟩ <;> rw [hi] at h1
    · cases h1
    · simp [GenState.init, bind, Except.bind, pure, Except.pure] at h1
  · intro h0
    rw [h0] at h
    cases h

omit [PyRound] in
theorem sum_axes (plane : Plane) (f : Axis → ℕ) : f .x + f .y + f .z + f .e =
    f (axisA plane) + f (axisB plane) + f (axis3 plane) + f .e := by
  cases plane <;> simp only [axisA, axisB, axis3] <;> omega

/-- How many pulses an arc takes. -/
theorem arc_total (hP : ∀ ax, (0 : ℝ) ≤ c.ppm.get ax) (h : GridArc c delta radius plane)
    (hg : CircGen.new c delta radius plane rot v = .ok g) :
    ((g.totals .x + g.totals .y + g.totals .z + g.totals .e : ℕ) : ℝ) ≤
      4 * (startDist plane radius * c.ppm.get (axisA plane) + 1 / 2) +
      4 * (startDist plane radius * c.ppm.get (axisB plane) + 1 / 2) +
      (|delta.get (axis3 plane)| * c.ppm.get (axis3 plane) + 1) + (|delta.e| * c.ppm.e + 1) := by
  obtain ⟨rfl, R, RB, A, B, EA, EB, hi, -, -, -, -, p1, p2, rA, rB, -, -, -, i1, i2, -, -⟩ :=
    arc_gen h hg
  obtain ⟨φs, φe, hf⟩ := new_facts hg
  obtain ⟨na, nb, n3⟩ := axes_ne_e g.plane
  have tA : g.totals (axisA g.plane) = g.itA.toNat := by simp [CircGen.totals]
  have tB : g.totals (axisB g.plane) = g.itB.toNat := by
    unfold CircGen.totals
    cases g.plane <;> simp [axisA, axisB]
  have t3 : g.totals (axis3 g.plane) = ⌈g.it3⌉₊ := by
    unfold CircGen.totals
    cases g.plane <;> simp [axisA, axisB, axis3]
  have tE : g.totals .e = ⌈g.itE⌉₊ := by
    unfold CircGen.totals
    cases g.plane <;> simp [axisA, axisB, axis3]
  rw [sum_axes g.plane g.totals, tA, tB, t3, tE]
  have hP : ∀ ax, (0 : ℝ) ≤ c.ppm.get ax := hP
  have e3 : g.it3 = |delta.get (axis3 g.plane)| * c.ppm.get (axis3 g.plane) := by
    rw [hf.it3]; cases g.plane <;> simp [planeAxes, axis3, V4.get]
  have eE : g.itE = |delta.e| * c.ppm.e := by rw [hf.itE]; simp
  have c3 := Nat.ceil_lt_add_one (a := g.it3) (by rw [e3]; exact mul_nonneg (abs_nonneg _) (hP _))
  have cE := Nat.ceil_lt_add_one (a := g.itE) (by rw [eE]; exact mul_nonneg (abs_nonneg _) (hP .e))
  rw [e3] at c3
  rw [eE] at cE
  have key : ∀ {i r : ℤ} {x : ℝ}, 0 < r → i ≤ 4 * r → PyRound.rnd x = r →
      ((i.toNat : ℕ) : ℝ) ≤ 4 * (x + 1 / 2) := by
    intro i r x h0 hi hr
    have h1 := rnd_le x
    rw [hr] at h1
    have h2 : ((i.toNat : ℕ) : ℤ) ≤ 4 * r := by omega
    have h3 : ((i.toNat : ℕ) : ℝ) ≤ 4 * r := by exact_mod_cast h2
    linarith
  have kA := key p1 i1 rA
  have kB := key p2 i2 rB
  push_cast
  rw [e3, eE]
  linarith

/-- What the generator of an ordinary arc emits is dense enough for the engine, and it is known how much
room it takes. -/
theorem arc_stream (hc : SaneCfg c) (h : OrdinaryArc c delta radius plane v)
    (hb : ¬ BackInQuarter plane delta radius) (hp : ∀ ax, 50 ≤ c.ppm.get ax) (ha : 200 ≤ c.accel)
    (hg : CircGen.new c delta radius plane rot v = .ok g) :
    ∃ evs ks, Emits c (.circular g) evs ∧ Stamps evs ks ∧ ShortGaps c.pulseLenUs 0 ks ∧
      room evs ≤ 224 + 128 * (g.totals .x + g.totals .y + g.totals .z + g.totals .e) := by
  obtain ⟨g', hg', hgood, -⟩ := arc_good hc h rot
  obtain rfl : g = g' := Except.ok.inj (hg.symm.trans hg')
  obtain ⟨R, RB, A, B, uA, uB, φ, ht⟩ := arc_tracks h.grid hg hb
  have hbase := hgood.toCircBase
  have hl := lin_nonneg hg
  obtain ⟨V, ρ, L, s, M, hx, hz⟩ := helix_new hc h hg
  obtain ⟨φs, φe, hf⟩ := new_facts hg
  obtain ⟨evs, he⟩ := circ_emits hgood
  have htimes := ht.times hbase hl he
  have hT := arc_timed ht hbase hl
  have h1 : (∀ ev ∈ evs, ¬ IsDir ev → ∃ τ, StepsAt τ ev) ∧
      (evs.Pairwise fun e₁ e₂ => ∀ τ₁ τ₂, StepsAt τ₁ e₁ → StepsAt τ₂ e₂ → τ₁ ≤ τ₂) := by
    obtain ⟨N, hN⟩ := he
    obtain ⟨-, -, t3⟩ := timed_init hT N
    have h1 := run_stepsAt c (.circular g) N .init
    rw [hN N le_rfl] at t3 h1
    exact ⟨h1, t3⟩
  obtain ⟨ks, k1, k2⟩ := stamps_of_still c.pulseLenUs (T := (Gen.circular g).totalTime) h1.1 h1.2
    (fun ev hev τ hτ => by
      cases ev with
      | dir d => exact absurd hτ (fun h => h)
      | pulse t =>
        obtain ⟨⟨ax, hax⟩, -⟩ := hτ
        have hm : τ ∈ stepTimes ax evs := by
          obtain ⟨l1, l2, rfl⟩ := List.append_of_mem hev
          rw [stepTimes_append, stepTimes_cons]
          simp [stepTimes, hax]
        rw [(htimes ax).2, List.mem_map] at hm
        obtain ⟨i, hi, rfl⟩ := hm
        have hn := hT.nonneg ax i (List.mem_range.1 hi)
        refine ⟨warp_nonneg hT.k hT.acc hT.lin hn, ?_⟩
        have := warp_le_total hT.k hT.acc hT.lin hn
        change _ ≤ g.accT * ((2 : ℚ) : ℝ) + g.linT
        push_cast
        change warp _ g.accT g.linT _ ≤ 2 * g.accT + g.linT at this
        change warp _ g.accT g.linT _ ≤ _
        linarith)
    (fun n x y h0 hxy hy ax ay => hz.still hx ht hbase hl hf hp hc.ppm_le ha he h0 hxy hy ax ay)
  refine ⟨evs, ks, he, k1, k2, (room_le h1.1).trans ?_⟩
  rw [(htimes .x).1, (htimes .y).1, (htimes .z).1, (htimes .e).1]
  have := arc_dirCount h.grid hg he
  omega

/-- The hardware takes an arc to its end. -/
theorem arc_ends {p : Pins} {b : Buf} {env : MoveEnv} {fuel N : Nat} (hc : SaneCfg c)
    (h : OrdinaryArc c delta radius plane v) (hnb : ¬ BackInQuarter plane delta radius)
    (hppm : ∀ ax, 50 ≤ c.ppm.get ax) (ha : 200 ≤ c.accel) (hb : BufOk b) (hp : PinsOk p)
    (hlen : c.pulseLenUs < 2 ^ 26) (hN : IdleAfter env N) (h1 : 1 ≤ fuel) (hf : N ≤ fuel)
    (hg : CircGen.new c delta radius plane rot v = .ok g)
    (hsz : 992 + 128 * (4 * startDist plane radius * (c.ppm.get (axisA plane) + c.ppm.get (axisB plane)) +
      |delta.get (axis3 plane)| * c.ppm.get (axis3 plane) + |delta.e| * c.ppm.e) ≤ b.size)
    (mem : Nat → Word) :
    ∃ evs s, Emits c (.circular g) evs ∧ Hal.move c p b env fuel evs .done mem = (s, .done) := by
  obtain ⟨evs, ks, h2, h3, h4, h5⟩ := arc_stream hc h hnb hppm ha hg
  have hroom : room evs ≤ b.size := by
    refine h5.trans ?_
    have := arc_total (fun ax => by exact_mod_cast (hc.ppm_pos ax).le) h.grid hg
    have : ((224 + 128 * (g.totals .x + g.totals .y + g.totals .z + g.totals .e) : ℕ) : ℝ) ≤ b.size := by
      push_cast at this ⊢
      linarith
    exact_mod_cast this
  obtain ⟨s, hs⟩ := Hal.move_ends (c := c) (env := env) (mem := mem) hb hp hlen hN h1 hf
    (emits_ne_nil h2) h3 h4 hroom
  exact ⟨_, s, h2, hs⟩

/-- An arc on the table. -/
theorem tableArc_ends {p : Pins} {b : Buf} {env : MoveEnv} {fuel N : Nat} (hc : SaneCfg c)
    (hppm : ∀ ax, 50 ≤ c.ppm.get ax) (ha : 200 ≤ c.accel) (hb : BufOk b) (hp : PinsOk p)
    (hlen : c.pulseLenUs < 2 ^ 26) (hN : IdleAfter env N) (h1 : 1 ≤ fuel) (hf : N ≤ fuel)
    (hsz : ∀ plane, longestArc c plane ≤ b.size) (hg : TableArc c g) (mem : Nat → Word) :
    ∃ evs s, Emits c (.circular g) evs ∧ Hal.move c p b env fuel evs .done mem = (s, .done) := by
  obtain ⟨radius, plane, rot, v, hg, hO, hnb, hA, hB, h3, hE⟩ := hg
  refine arc_ends hc hO hnb hppm ha hb hp hlen hN h1 hf hg ?_ mem
  have hs : ((longestArc c plane : ℚ) : ℝ) ≤ (b.size : ℝ) := by exact_mod_cast hsz plane
  have hP : ∀ ax, (0 : ℝ) < c.ppm.get ax := fun ax => by exact_mod_cast hc.ppm_pos ax
  simp only [longestArc] at hs
  push_cast at hs
  rw [hE, abs_zero, zero_mul]
  have k1 : 2 * startDist plane radius ≤ min (tableSize c (axisA plane) : ℝ) (tableSize c (axisB plane)) :=
    le_min hA hB
  have k2 := mul_le_mul_of_nonneg_right k1 (add_pos (hP (axisA plane)) (hP (axisB plane))).le
  have k3 := mul_le_mul_of_nonneg_right h3 (hP (axis3 plane)).le
  linarith

omit [PyRound] in
theorem stamps_steps {F : Type} [PyNum F] {evs : List (Event F)} {ks : List Int} (h : Stamps evs ks)
    (ax : Axis) : steps ax evs ≤ ks.length := by
  induction h with
  | nil => exact Nat.zero_le _
  | dir _ ih => rw [steps_cons]; simpa [steps, stepTimes] using ih
  | @pulse x τ evs ks hx _ ih =>
    rw [steps_cons, List.length_cons]
    have : steps ax [Event.pulse x] ≤ 1 := by
      unfold steps stepTimes
      cases x.get ax <;> simp [stepTimes]
    omega

omit [PyRound] in
theorem stamps_exist {F : Type} [PyNum F] {evs : List (Event F)}
    (h : ∀ ev ∈ evs, ¬ IsDir ev → ∃ τ, StepsAt τ ev) : ∃ ks, Stamps evs ks := by
  induction evs with
  | nil => exact ⟨[], .nil⟩
  | cons ev evs ih =>
    obtain ⟨ks, hk⟩ := ih fun e he => h e (by simp [he])
    cases ev with
    | dir d => exact ⟨ks, .dir hk⟩
    | pulse t =>
      obtain ⟨τ, hτ⟩ := h (.pulse t) (by simp) (fun h => h)
      exact ⟨_, .pulse hτ hk⟩

omit [PyRound] in
/-- How many steps a whole circle takes at least. -/
theorem Track.whole {R u : ℤ} {ψ T : ℝ} {m : ℕ} (h : Track R u ψ T m) (hT : T = 2 * π) :
    4 * R - 1 ≤ m := by
  have hR := h.R'
  have h1 := h.s1
  have h2 := h.e2
  have h3 := psi_turn hR ((u : ℝ) - 1) 1
  push_cast at h1 h2 h3
  have h4 : Psi R ((u : ℝ) - 1 + 4 * 1 * R) < Psi R ((u : ℝ) + m + 1) := by rw [h3]; linarith
  have h5 := (psi_lt_iff hR).1 h4
  have h6 : u - 1 + 4 * R < u + m + 1 := by
    have : ((u - 1 + 4 * R : ℤ) : ℝ) < ((u + m + 1 : ℤ) : ℝ) := by push_cast; linarith
    exact_mod_cast this
  omega

/-- What a whole circle takes of the buffer at least. -/
theorem whole_room {p : Pins} {b : Buf} {env : MoveEnv} {fuel : Nat} (hc : SaneCfg c)
    (h : OrdinaryArc c delta radius plane v) (hA : delta.get (axisA plane) = 0)
    (hB : delta.get (axisB plane) = 0) (hg : CircGen.new c delta radius plane rot v = .ok g)
    {evs : List (Event ℝ)} (he : Emits c (.circular g) evs) {re : RunEnd} {mem : Nat → Word} {s : MoveSt}
    (hm : Hal.move c p b env fuel evs re mem = (s, .done)) :
    96 * (4 * PyRound.rnd (startDist plane radius * c.ppm.get (axisA plane)) - 1) ≤ (b.size : ℤ) := by
  have hnb : ¬ BackInQuarter plane delta radius := by
    rintro ⟨_, hx⟩
    simp only [endA, endB, startA, startB, hA, hB] at hx
    linarith
  obtain ⟨g', hg', hgood, -⟩ := arc_good hc h rot
  obtain rfl : g = g' := Except.ok.inj (hg.symm.trans hg')
  obtain ⟨R, RB, A, B, uA, uB, φ, ht⟩ := arc_tracks h.grid hg hnb
  have hT := sweep_full ht.sweep h.start hA hB
  have hm' := ht.ta.whole hT
  have hst := (ht.times hgood.toCircBase (lin_nonneg hg) he (axisA plane)).1
  have htot : g.totals (axisA plane) = g.itA.toNat := by simp [CircGen.totals, ht.plane_eq]
  obtain ⟨ks, hks⟩ : ∃ ks, Stamps evs ks := by
    obtain ⟨N, hN⟩ := he
    have h1 := run_stepsAt c (.circular g) N .init
    rw [hN N le_rfl] at h1
    exact stamps_exist h1
  obtain ⟨q, hh, -⟩ := Hal.move_ok hm
  have h5 := Hal.evsBlks_length (c := c) (p := p) hks 0
  have h6 := hh.1
  have h7 := hh.2.1
  have h8 := stamps_steps hks (axisA plane)
  rw [ht.rA]
  rw [hst, htot] at h8
  omega

end Stream

end PyCNC
