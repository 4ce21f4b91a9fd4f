import Verif.Spec.Motor
import Verif.Lemmas.HalMove

/-!
# When `move` reaches its end
-/

namespace PyCNC

open Spec

variable {F : Type} [PyNum F]

theorem packInto_fits {mem : Nat → Word} {a : Nat} {ws : List Nat} (h : ∀ v ∈ ws, v < 2 ^ 32) :
    ∃ m, packInto mem a ws = .ok m := by
  unfold packInto
  rw [if_pos (by simpa using h)]
  exact ⟨_, rfl⟩

namespace DmaGpio

theorem addSetClear_fits {b : Buf} {x y : Nat} {s : DmaSt} (hb : b.base + b.size < 2 ^ 32)
    (h : s.addr + 32 ≤ b.size) (hx : x < 2 ^ 32) (hy : y < 2 ^ 32) :
    ∃ d, addSetClear b x y s = .ok d ∧ d.addr = s.addr + 32 := by
  unfold addSetClear
  dsimp only
  rw [if_neg (by simp only [cbSize]; omega)]
  obtain ⟨m, hm⟩ := packInto_fits (mem := s.mem) (a := s.addr)
    (ws := [pulseInfo, b.base + (s.addr + cbSize) - 8, pulseDst, pulseLen, pulseStride,
      b.base + (s.addr + cbSize), x, y]) (by
    simp only [List.mem_cons, List.not_mem_nil, or_false, cbSize, forall_eq_or_imp, forall_eq]
    refine ⟨by decide, by omega, by decide, by decide, by decide, by omega, hx, hy⟩)
  rw [hm]
  exact ⟨_, rfl, rfl⟩

theorem addDelay_fits {b : Buf} {u : Nat} {s : DmaSt} (hb : b.base + b.size < 2 ^ 32)
    (h : s.addr + 32 ≤ b.size) (hu : u < 2 ^ 28) :
    ∃ d, addDelay b u s = .ok d ∧ d.addr = s.addr + 32 := by
  unfold addDelay
  dsimp only
  rw [if_neg (by simp only [cbSize]; omega)]
  obtain ⟨m, hm⟩ := packInto_fits (mem := s.mem) (a := s.addr)
    (ws := [delayInfo, b.base + (s.addr + cbSize) - 8, pwmFifo, u * 2 ^ 4, 0,
      b.base + (s.addr + cbSize), 0, 0]) (by
    simp only [List.mem_cons, List.not_mem_nil, or_false, cbSize, forall_eq_or_imp, forall_eq]
    refine ⟨by decide, by omega, by decide, by omega, by decide, by omega, by decide, by decide⟩)
  rw [hm]
  exact ⟨_, rfl, rfl⟩

theorem addPulse_fits {b : Buf} {x u : Nat} {s : DmaSt} (hb : b.base + b.size < 2 ^ 32)
    (h : s.addr + 96 ≤ b.size) (hx : x < 2 ^ 32) (hu : u < 2 ^ 28) :
    ∃ d, addPulse b x u s = .ok d ∧ d.addr = s.addr + 96 := by
  unfold addPulse
  dsimp only
  rw [if_neg (by simp only [cbSize]; omega)]
  obtain ⟨m, hm⟩ := packInto_fits (mem := s.mem) (a := s.addr)
    (ws := [pulseInfo, s.addr + 3 * cbSize + b.base - cbSize - cbSize - 8, pulseDst, pulseLen,
      pulseStride, s.addr + 3 * cbSize + b.base - cbSize - cbSize, x, 0,
      delayInfo, 0, pwmFifo, u * 2 ^ 4, 0, s.addr + 3 * cbSize + b.base - cbSize, 0, 0,
      pulseInfo, s.addr + 3 * cbSize + b.base - 8, pulseDst, pulseLen, pulseStride,
      s.addr + 3 * cbSize + b.base, 0, x]) (by
    simp only [List.mem_cons, List.not_mem_nil, or_false, cbSize, forall_eq_or_imp, forall_eq]
    refine ⟨by decide, by omega, by decide, by decide, by decide, by omega, hx, by decide,
      by decide, by decide, by decide, by omega, by decide, by omega, by decide, by decide,
      by decide, by omega, by decide, by decide, by decide, by omega, by decide, hx⟩)
  rw [hm]
  exact ⟨_, rfl, rfl⟩

end DmaGpio

theorem or_bit_lt {m pin : Nat} (hm : m < 2 ^ 32) (hp : pin < 32) : m ||| 2 ^ pin < 2 ^ 32 :=
  Nat.or_lt_two_pow hm (Nat.pow_lt_pow_right (by omega) hp)

theorem dirAxis_lt {d : Int} {pin : Nat} {m : Nat × Nat} (hp : pin < 32)
    (h : m.1 < 2 ^ 32 ∧ m.2 < 2 ^ 32) :
    (Hal.dirAxis d pin m).1 < 2 ^ 32 ∧ (Hal.dirAxis d pin m).2 < 2 ^ 32 := by
  unfold Hal.dirAxis
  split
  · exact ⟨h.1, or_bit_lt h.2 hp⟩
  · split
    · exact ⟨or_bit_lt h.1 hp, h.2⟩
    · exact h

theorem dirMasks_lt {p : Pins} (hp : PinsOk p) (d : V4 Int) :
    (Hal.dirMasks p d).1 < 2 ^ 32 ∧ (Hal.dirMasks p d).2 < 2 ^ 32 :=
  dirAxis_lt (hp .e).2 (dirAxis_lt (hp .z).2 (dirAxis_lt (hp .y).2 (dirAxis_lt (hp .x).2
    ⟨by decide, by decide⟩)))

omit [PyNum F] in
theorem stepMask_lt {p : Pins} (hp : PinsOk p) (t : V4 (Option F)) :
    Hal.stepMask p t < 2 ^ 32 := by
  have key : ∀ (b : Bool) (m : Nat) (ax : Axis), m < 2 ^ 32 →
      (if b then m ||| 2 ^ p.step.get ax else m) < 2 ^ 32 := by
    intro b m ax hm
    cases b
    · exact hm
    · exact or_bit_lt hm (hp ax).1
  exact key _ _ .e (key _ _ .z (key _ _ .y (key _ _ .x (by decide))))

namespace Hal

/-- When the earlier program ends, so does the waiting loop. -/
theorem moveWait_ends {env : MoveEnv} {N : Nat} (hN : IdleAfter env N) (n : Nat) (s : MoveSt)
    (h1 : 1 ≤ n) (h : N ≤ n + polls s.trace) : ∃ s', moveWait env n s = some s' := by
  induction n generalizing s with
  | zero => omega
  | succ n ih =>
    unfold moveWait
    split
    · exact ⟨_, rfl⟩
    · split
      · dsimp only
        split
        · exact ⟨_, rfl⟩
        · rename_i q hq
          have hp : polls (HalOp.poll :: s.trace) = polls s.trace + 1 := rfl
          have : ¬ N ≤ polls (HalOp.poll :: s.trace) := fun h => by
            rw [hN _ h] at hq; cases hq
          exact ih _ (by omega) (by dsimp only; omega)
      · exact ⟨_, rfl⟩

theorem moveAdd_of {f : DmaSt → Except PyErr DmaSt} {s : MoveSt} {d : DmaSt}
    (h : f s.dma = .ok d) :
    ∃ s', moveAdd f s = .ok s' ∧ s'.dma = d ∧ s'.prev = s.prev := by
  unfold moveAdd
  rw [h]
  exact ⟨_, rfl, rfl, rfl⟩

/-- One iteration succeeds when its blocks fit. -/
theorem moveBody_dir {c : Cfg} {p : Pins} {b : Buf} {env : MoveEnv} {d : V4 Int} {s : MoveSt}
    (hb : b.base + b.size < 2 ^ 32) (hp : PinsOk p) (h : s.dma.addr + 32 ≤ b.size) :
    ∃ s', moveBody (F := F) c p b env (.dir d) s = .ok s' ∧ s'.dma.addr = s.dma.addr + 32 ∧
      s'.prev = s.prev := by
  obtain ⟨d', h1, h2⟩ := DmaGpio.addSetClear_fits hb h (dirMasks_lt hp d).1 (dirMasks_lt hp d).2
  obtain ⟨s', h3, h4, h5⟩ := moveAdd_of (s := s) h1
  exact ⟨s', h3, by rw [h4, h2], h5⟩

theorem moveBody_pulse {c : Cfg} {p : Pins} {b : Buf} {env : MoveEnv} {t : V4 (Option F)}
    {m : F} {s : MoveSt} (hb : b.base + b.size < 2 ^ 32) (hp : PinsOk p)
    (hlen : c.pulseLenUs < 2 ^ 26) (h : s.dma.addr + 128 ≤ b.size) (hm : minTime t = some m)
    (hk : PyNum.roundI (m *ₚ PyNum.ofRat 1000000) - s.prev < 2 ^ 26) :
    ∃ s', moveBody c p b env (.pulse t) s = .ok s' ∧ s.dma.addr + 96 ≤ s'.dma.addr ∧
      s'.dma.addr ≤ s.dma.addr + 128 ∧
      s'.prev = PyNum.roundI (m *ₚ PyNum.ofRat 1000000) + c.pulseLenUs := by
  simp only [moveBody, hm]
  generalize PyNum.roundI (m *ₚ PyNum.ofRat 1000000) = k at hk ⊢
  have fin : ∀ s1 : MoveSt, s.dma.addr ≤ s1.dma.addr → s1.dma.addr ≤ s.dma.addr + 32 → ∃ s',
      (do
        let s ← moveAdd (DmaGpio.addPulse b (stepMask p t) c.pulseLenUs) s1
        let s := { s with prev := k + c.pulseLenUs }
        if !s.isRan && s.instant && s.cur.isNone && decide (k - s.k0 > 100000) then
          if env.slow s.trace then return { s with instant := false }
          else return { s with trace := .runStream :: s.trace, isRan := true, live := [s.dma] }
        else return s : Except PyErr MoveSt) = .ok s' ∧ s.dma.addr + 96 ≤ s'.dma.addr ∧
        s'.dma.addr ≤ s.dma.addr + 128 ∧ s'.prev = k + c.pulseLenUs := by
    intro s1 ha1 ha2
    obtain ⟨d', h1, h2⟩ := DmaGpio.addPulse_fits (s := s1.dma) (u := c.pulseLenUs) hb (by omega)
      (stepMask_lt hp t) (by omega)
    obtain ⟨s2, h3, h4, h5⟩ := moveAdd_of (s := s1) h1
    rw [h3]
    simp only [bind, Except.bind]
    split
    · split <;> exact ⟨_, rfl, by dsimp only; rw [h4, h2]; omega, by dsimp only; rw [h4, h2]; omega, rfl⟩
    · exact ⟨_, rfl, by dsimp only; rw [h4, h2]; omega, by dsimp only; rw [h4, h2]; omega, rfl⟩
  by_cases hd : k - s.prev > 0
  · simp only [hd, if_true]
    obtain ⟨d', h1, h2⟩ := DmaGpio.addDelay_fits (s := s.dma) (u := (k - s.prev).toNat) hb
      (by omega) (by omega)
    obtain ⟨s2, h3, h4, h5⟩ := moveAdd_of (s := { s with k := k }) h1
    rw [h3]
    exact fin s2 (by rw [h4, h2]; omega) (by rw [h4, h2])
  · simp only [hd, if_false]
    exact fin { s with k := k } le_rfl (by dsimp only; omega)

/-- The loop succeeds when everything fits. -/
theorem moveLoop_runs {c : Cfg} {p : Pins} {b : Buf} {env : MoveEnv} {fuel N : Nat}
    (hb : b.base + b.size < 2 ^ 32) (hp : PinsOk p) (hlen : c.pulseLenUs < 2 ^ 26)
    (hN : IdleAfter env N) (h1 : 1 ≤ fuel) (hf : N ≤ fuel)
    (evs : List (Event F)) (ks : List Int) (s : MoveSt) (hks : Stamps evs ks)
    (hg : ShortGaps c.pulseLenUs s.prev ks) (hr : s.dma.addr + room evs ≤ b.size) :
    ∃ s', moveLoop c p b env fuel evs s = (s', .running) ∧
      (s.dma.addr ≠ 0 ∨ evs ≠ [] → s'.dma.addr ≠ 0) := by
  induction evs generalizing ks s with
  | nil => exact ⟨s, rfl, fun h => h.elim id fun h => absurd rfl h⟩
  | cons ev evs ih =>
    obtain ⟨s1, hw⟩ := moveWait_ends hN fuel s h1 (by omega)
    obtain ⟨w1, w2, -, -⟩ := moveWait_same hw
    unfold moveLoop
    rw [hw]
    dsimp only
    cases ev with
    | dir d =>
      cases hks with
      | dir hks =>
        simp only [room] at hr
        obtain ⟨s2, b1, b2, b3⟩ := moveBody_dir (F := F) (c := c) (env := env) (d := d) (s := s1)
          hb hp (by rw [w1]; omega)
        rw [b1]
        obtain ⟨s3, k1, k2⟩ := ih ks s2 hks (by rw [b3, w2]; exact hg) (by rw [b2, w1]; omega)
        exact ⟨s3, k1, fun _ => k2 (Or.inl (by omega))⟩
    | pulse x =>
      cases hks with
      | @pulse _ τ _ ks hx hks =>
        simp only [room] at hr
        obtain ⟨g1, g2⟩ := hg
        obtain ⟨s2, b1, b2, b3, b4⟩ := moveBody_pulse (c := c) (env := env) (s := s1) hb hp hlen
          (by rw [w1]; omega) (minTime_stepsAt hx) (by rw [w2]; exact g1)
        rw [b1]
        obtain ⟨s3, k1, k2⟩ := ih ks s2 hks (by rw [b4]; exact g2) (by rw [w1] at b3; omega)
        exact ⟨s3, k1, fun _ => k2 (Or.inl (by omega))⟩

/-- `move` reaches its end. -/
theorem move_ends {c : Cfg} {p : Pins} {b : Buf} {env : MoveEnv} {fuel N : Nat}
    {evs : List (Event F)} {ks : List Int} {mem : Nat → Word}
    (hb : BufOk b) (hp : PinsOk p) (hlen : c.pulseLenUs < 2 ^ 26)
    (hN : IdleAfter env N) (h1 : 1 ≤ fuel) (hf : N ≤ fuel) (hne : evs ≠ [])
    (hks : Stamps evs ks) (hg : ShortGaps c.pulseLenUs 0 ks) (hr : room evs ≤ b.size) :
    ∃ s, move c p b env fuel evs .done mem = (s, .done) := by
  obtain ⟨s, hl, h0⟩ := moveLoop_runs (env := env) hb.top hp hlen hN h1 hf evs ks
    (moveInit c mem) hks hg (by simpa [moveInit] using hr)
  have h0 := h0 (Or.inr hne)
  unfold move
  rw [hl]
  simp only [moveFinish]
  split
  · exact ⟨_, rfl⟩
  · exact ⟨_, rfl⟩

end Hal

/-- The engine is deterministic: there is one way to come to the end of a program. -/
theorem Dma.run_ends_unique {b : Buf} {n m cb : Nat} {w w1 w2 : World}
    (h1 : Dma.run b n cb w = (w1, 0)) (h2 : Dma.run b m cb w = (w2, 0)) : w1 = w2 := by
  induction n generalizing m cb w with
  | zero =>
    injection h1 with e1 e2
    subst e1 e2
    cases m with
    | zero => injection h2
    | succ m =>
      unfold Dma.run at h2
      rw [if_pos rfl] at h2
      injection h2
  | succ n ih =>
    unfold Dma.run at h1
    split at h1
    · rename_i h0
      injection h1 with e1
      subst e1 h0
      cases m with
      | zero => injection h2
      | succ m =>
        unfold Dma.run at h2
        rw [if_pos rfl] at h2
        injection h2
    · rename_i h0
      cases m with
      | zero => injection h2 with e1 e2; exact absurd e2 h0
      | succ m =>
        unfold Dma.run at h2
        rw [if_neg h0] at h2
        exact ih h1 h2

end PyCNC
