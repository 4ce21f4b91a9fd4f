import Verif.Lemmas.Gaps64
import Verif.Lemmas.Interp64
import Verif.Lemmas.Pins

/-!
# From generators to the pins, in binary64
-/

set_option linter.unusedSectionVars false

namespace PyCNC

open Spec

variable [PyRound] {c : Cfg} {p : Pins} {b : Buf}

/-- What the generator of a straight move emits in binary64 fits into a large buffer and is dense
enough for the engine. -/
theorem linear_stream64 (hc : SaneCfg c) (hd : DecimalLimits c) (hf : ∀ ax, c.maxVel.get ax ≤ 60000)
    (ha : c.autoVel = true) (hppm : ∀ ax, 10 ≤ c.ppm.get ax) {n : V4 ℤ} {w : V4 F64} {v : F64}
    (h : Steps64 c n w) (hn : ∃ ax, n.get ax ≠ 0) (hv : 1 ≤ v.1) {g : LinearGen F64}
    (hg : LinearGen.new c w v = .ok g) :
    ∃ evs ks, Emits c (.linear g) evs ∧ evs ≠ [] ∧ Stamps evs ks ∧ ShortGaps c.pulseLenUs 0 ks ∧
      room evs ≤ 32 + 128 * ((n.x).natAbs + (n.y).natAbs + (n.z).natAbs + (n.e).natAbs) := by
  obtain ⟨g', h1, hgood⟩ := linear64_new hc h hn hv
  rw [hg] at h1
  cases h1
  have hlim : ∀ ax, (g.maxV.get ax).1 ≤ 1001 := by
    intro ax
    refine (limit64 hc hd hf ha h hn hv hg ax).trans ?_
    have h2 : ((c.maxVel.get ax : ℚ) : ℝ) ≤ 60000 := by exact_mod_cast hf ax
    have h3 : fl ((c.maxVel.get ax : ℝ) / 60) ≤ fl ((1000 : ℤ) : ℝ) :=
      fl_mono (by push_cast; linarith)
    rw [fl_int 1000 (by norm_num)] at h3
    push_cast at h3
    linarith
  obtain ⟨q, hs⟩ := shape64 hc hf ha h hn hv hg hlim
  obtain ⟨dom, hdom⟩ := findMax64_mem g.maxV
  obtain ⟨evs, N, hN⟩ := linear64_done hgood
  have hrun := hN (N + 1) (by omega)
  rcases linear_run_shape c g N with ⟨e, h2⟩ | ⟨r, h2, h3, h4⟩
  · rw [hrun] at h2; cases h2
  rw [hrun] at h2 h4
  simp only at h2 h4
  obtain ⟨ks, k1, k2⟩ := run_gaps64 hc hppm h hs hgood (congrArg Subtype.val hdom) c.pulseLenUs N
    ⟨⟨0, 0, 0, 0⟩, some g.dir⟩ 0 0 ⟨rfl, fun ax => by cases ax <;> exact Nat.zero_le _, le_rfl,
      fun h0 => absurd (by cases dom <;> rfl) h0, fun ax _ => ut_nonneg hgood ax _⟩ (by
        rw [warp_zero hs.accT.1]; norm_num)
  rw [h4] at k1
  have hat : ∀ ev ∈ r, ∃ τ, StepsAt τ ev := by
    intro ev hev
    obtain ⟨t, rfl⟩ := h3 ev hev
    have hev' : Event.pulse t ∈ ((Gen.linear g).run c N ⟨⟨0, 0, 0, 0⟩, some g.dir⟩).1 := by
      rw [h4]; exact hev
    exact run_stepsAt c _ _ _ _ hev' (by simp [IsDir])
  refine ⟨evs, ks, ⟨N, hN⟩, by rw [h2]; simp, by rw [h2]; exact .dir k1, k2, ?_⟩
  rw [h2, room, room_pulses h3]
  have hlen := length_le_steps hat
  have key : ∀ ax, steps ax r = (n.get ax).natAbs := by
    intro ax
    have := (linear_run_steps c g N ⟨⟨0, 0, 0, 0⟩, some g.dir⟩ ax
      (by cases ax <;> exact Nat.zero_le _)).2 (by rw [h4])
    rw [h4, hs.total ax] at this
    have e0 : (⟨0, 0, 0, 0⟩ : V4 Nat).get ax = 0 := by cases ax <;> rfl
    simp only [e0] at this
    rw [Int.abs_eq_natAbs] at this
    omega
  have hx := key .x
  have hy := key .y
  have hz := key .z
  have he := key .e
  simp only [V4.get] at hx hy hz he
  omega

/-- Moves that the back end can carry out: straight, from one step to another, no longer than the
table, with at most `m` millimetres of extrusion. -/
def Doable64 (c : Cfg) (m : ℚ) (g : Gen F64) : Prop :=
  ∃ lg d v n, g = .linear lg ∧ Steps64 c n d ∧ (∃ ax, n.get ax ≠ 0) ∧ 1 ≤ v.1 ∧
    LinearGen.new c d v = .ok lg ∧ ∀ ax, (|n.get ax| : ℝ) ≤ reach c m ax * c.ppm.get ax

theorem grown_doable64 {m : ℚ} {tr tr' : List (HalCall F64)}
    (h : ∀ g, HalCall.move g ∈ tr → Doable64 c m g) (hg : Grown64 c m tr tr') :
    ∀ g, HalCall.move g ∈ tr' → Doable64 c m g := by
  rcases hg with rfl | ⟨lg, d, v, n, rfl, hg⟩
  · exact h
  · intro g hg'
    rcases List.mem_cons.1 hg' with e | e
    · cases e
      exact ⟨lg, d, v, n, rfl, hg⟩
    · exact h g e

theorem linear_ends64 {env : MoveEnv} {fuel N : Nat} (hc : SaneCfg c) (hd : DecimalLimits c)
    (hf : ∀ ax, c.maxVel.get ax ≤ 60000) (ha : c.autoVel = true) (hppm : ∀ ax, 10 ≤ c.ppm.get ax)
    (hb : BufOk b) (hp : PinsOk p) (hlen : c.pulseLenUs < 2 ^ 26)
    (hN : IdleAfter env N) (h1 : 1 ≤ fuel) (hfu : N ≤ fuel) {n : V4 ℤ} {w : V4 F64} {v : F64}
    (h : Steps64 c n w) (hn : ∃ ax, n.get ax ≠ 0) (hv : 1 ≤ v.1) {g : LinearGen F64}
    (hg : LinearGen.new c w v = .ok g)
    (hsz : 32 + 128 * ((n.x).natAbs + (n.y).natAbs + (n.z).natAbs + (n.e).natAbs) ≤ b.size)
    (mem : Nat → Word) :
    ∃ evs s, Emits c (.linear g) evs ∧ Hal.move c p b env fuel evs .done mem = (s, .done) := by
  obtain ⟨evs, ks, h2, h3, h4, h5, h6⟩ := linear_stream64 hc hd hf ha hppm h hn hv hg
  obtain ⟨s, hs⟩ := Hal.move_ends (c := c) (env := env) (mem := mem) hb hp hlen hN h1 hfu h3 h4 h5
    (h6.trans hsz)
  exact ⟨_, s, h2, hs⟩

theorem doable_ends64 {env : MoveEnv} {fuel N : Nat} (hc : SaneCfg c) (hd : DecimalLimits c)
    (hf : ∀ ax, c.maxVel.get ax ≤ 60000) (ha : c.autoVel = true) (hppm : ∀ ax, 10 ≤ c.ppm.get ax)
    (hb : BufOk b) (hp : PinsOk p) (hlen : c.pulseLenUs < 2 ^ 26) {m : ℚ}
    (hsz : longestMove c m ≤ b.size) (hN : IdleAfter env N) (h1 : 1 ≤ fuel) (hfu : N ≤ fuel)
    {g : Gen F64} (hg : Doable64 c m g) (mem : Nat → Word) :
    ∃ evs s, Emits c g evs ∧ Hal.move c p b env fuel evs .done mem = (s, .done) := by
  obtain ⟨lg, d, v, n, rfl, hS, hn, hv, hnew, hle⟩ := hg
  refine linear_ends64 hc hd hf ha hppm hb hp hlen hN h1 hfu hS hn hv hnew ?_ mem
  have hs : ((longestMove c m : ℚ) : ℝ) ≤ (b.size : ℝ) := by exact_mod_cast hsz
  have key : ∀ k : ℤ, ((k.natAbs : ℕ) : ℝ) = |(k : ℝ)| := fun k => by
    rw [← Int.cast_abs, ← Int.cast_natCast, Int.natCast_natAbs]
  have hx := hle .x
  have hy := hle .y
  have hz := hle .z
  have he := hle .e
  simp only [longestMove] at hs
  push_cast at hs
  simp only [V4.get, reach, tableSize] at hx hy hz he
  have : ((32 + 128 * ((n.x).natAbs + (n.y).natAbs + (n.z).natAbs + (n.e).natAbs) : ℕ) : ℝ) ≤
      b.size := by
    push_cast
    rw [key, key, key, key]
    linarith
  exact_mod_cast this

end PyCNC
