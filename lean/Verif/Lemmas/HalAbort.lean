import Verif.Lemmas.HalFinish
import Verif.Lemmas.HalStream

/-!
# When `move` ends with an exception
-/

namespace PyCNC

open Spec

variable {F : Type} [PyNum F]

namespace Hal

/-- The operations of the loop. -/
def LoopOp (op : HalOp) : Prop :=
  op = .poll ∨ (∃ a n, op = .write a n) ∨ op = .runStream

/-- One iteration with a pulse: what changes beside the buffer. -/
theorem moveBody_pulse_cases {c : Cfg} {p : Pins} {b : Buf} {env : MoveEnv} {t : V4 (Option F)} {m : F}
    {s s' : MoveSt} (hm : minTime t = some m) (h : moveBody c p b env (.pulse t) s = .ok s') :
    ∃ ws : List HalOp, (∀ op ∈ ws, ∃ a n, op = .write a n) ∧
      s'.k = PyNum.roundI (m *ₚ PyNum.ofRat 1000000) ∧ s'.cur = s.cur ∧ s'.k0 = s.k0 ∧
      ((s'.trace = ws ++ s.trace ∧ s'.isRan = s.isRan ∧ s'.instant = s.instant ∧
          ¬ (s.isRan = false ∧ s.instant = true ∧ s.cur = none ∧ s'.k - s.k0 > 100000)) ∨
       ((∃ tr, env.slow tr = true) ∧ s'.trace = ws ++ s.trace ∧ s'.isRan = s.isRan ∧
          s'.instant = false) ∨
       (s.isRan = false ∧ s.instant = true ∧ s.cur = none ∧ s'.k - s.k0 > 100000 ∧
          s'.trace = .runStream :: (ws ++ s.trace) ∧ s'.isRan = true)) := by
  simp only [moveBody, hm] at h
  generalize PyNum.roundI (m *ₚ PyNum.ofRat 1000000) = k at h ⊢
  have fin : ∀ (s1 : MoveSt) (ws : List HalOp), s1.isRan = s.isRan → s1.cur = s.cur →
      s1.instant = s.instant → s1.k0 = s.k0 → s1.k = k → s1.trace = ws ++ s.trace →
      (∀ op ∈ ws, ∃ a n, op = .write a n) →
      (do
        let s ← moveAdd (DmaGpio.addPulse b (stepMask p t) c.pulseLenUs) s1
        let s := { s with prev := k + c.pulseLenUs }
        if !s.isRan && s.instant && s.cur.isNone && decide (k - s.k0 > 100000) then
          if env.slow s.trace then return { s with instant := false }
          else return { s with trace := .runStream :: s.trace, isRan := true, live := [s.dma] }
        else return s : Except PyErr MoveSt) = .ok s' →
      ∃ ws : List HalOp, (∀ op ∈ ws, ∃ a n, op = .write a n) ∧
        s'.k = k ∧ s'.cur = s.cur ∧ s'.k0 = s.k0 ∧
        ((s'.trace = ws ++ s.trace ∧ s'.isRan = s.isRan ∧ s'.instant = s.instant ∧
            ¬ (s.isRan = false ∧ s.instant = true ∧ s.cur = none ∧ s'.k - s.k0 > 100000)) ∨
         ((∃ tr, env.slow tr = true) ∧ s'.trace = ws ++ s.trace ∧ s'.isRan = s.isRan ∧
            s'.instant = false) ∨
         (s.isRan = false ∧ s.instant = true ∧ s.cur = none ∧ s'.k - s.k0 > 100000 ∧
            s'.trace = .runStream :: (ws ++ s.trace) ∧ s'.isRan = true)) := by
    intro s1 ws e1 e2 e3 e4 e5 e6 hw h1
    cases ha : moveAdd (DmaGpio.addPulse b (stepMask p t) c.pulseLenUs) s1 with
    | error e => rw [ha] at h1; cases h1
    | ok s2 =>
      rw [ha] at h1
      obtain ⟨d', hd, rfl⟩ := moveAdd_ok ha
      simp only [bind, Except.bind] at h1
      refine ⟨.write s1.dma.addr (d'.addr - s1.dma.addr) :: ws, ?_, ?_⟩
      · intro op hop
        rcases List.mem_cons.1 hop with rfl | hop
        · exact ⟨_, _, rfl⟩
        · exact hw op hop
      rw [e1, e2, e3, e4] at h1
      split at h1
      · rename_i hcond
        simp only [Bool.and_eq_true, Bool.not_eq_true', Option.isNone_iff_eq_none,
          decide_eq_true_eq] at hcond
        obtain ⟨⟨⟨c1, c2⟩, c3⟩, c4⟩ := hcond
        split at h1
        · rename_i hslow
          injection h1 with h1
          subst h1
          exact ⟨e5, rfl, rfl, .inr (.inl ⟨⟨_, hslow⟩, by simp [e6], rfl, rfl⟩)⟩
        · injection h1 with h1
          subst h1
          refine ⟨e5, rfl, rfl, .inr (.inr ⟨c1, c2, c3, ?_, by simp [e6], rfl⟩)⟩
          dsimp only
          rw [e5]
          exact c4
      · rename_i hcond
        injection h1 with h1
        subst h1
        refine ⟨e5, rfl, rfl, .inl ⟨by simp [e6], rfl, rfl, ?_⟩⟩
        dsimp only
        rw [e5]
        rintro ⟨c1, c2, c3, c4⟩
        apply hcond
        simp only [Bool.and_eq_true, Bool.not_eq_true', Option.isNone_iff_eq_none,
          decide_eq_true_eq]
        exact ⟨⟨⟨c1, c2⟩, c3⟩, c4⟩
  by_cases hk : k - s.prev > 0
  · simp only [hk, if_true] at h
    cases ha : moveAdd (DmaGpio.addDelay b (k - s.prev).toNat) { s with k := k } with
    | error e => rw [ha] at h; cases h
    | ok s2 =>
      rw [ha] at h
      obtain ⟨d', hd, rfl⟩ := moveAdd_ok ha
      exact fin (upd { s with k := k } d') [.write s.dma.addr (d'.addr - s.dma.addr)] rfl rfl rfl rfl rfl rfl (by
        intro op hop
        rw [List.mem_singleton] at hop
        exact ⟨_, _, hop⟩) h
  · simp only [hk, if_false] at h
    exact fin { s with k := k } [] rfl rfl rfl rfl rfl rfl (by simp) h

/-- Waiting: `k0` and the trace. -/
theorem moveWait_more {env : MoveEnv} {n : Nat} {s s' : MoveSt} (h : moveWait env n s = some s') :
    s'.k = s.k ∧ (s'.k0 = s.k0 ∨ s'.k0 = s.k) ∧
      ∃ ps : List HalOp, (∀ op ∈ ps, op = .poll) ∧ s'.trace = ps ++ s.trace := by
  induction n generalizing s with
  | zero =>
    unfold moveWait at h
    split at h
    · injection h with h; subst h; exact ⟨rfl, .inl rfl, [], by simp, rfl⟩
    · split at h
      · cases h
      · injection h with h; subst h; exact ⟨rfl, .inl rfl, [], by simp, rfl⟩
  | succ n ih =>
    unfold moveWait at h
    split at h
    · injection h with h; subst h; exact ⟨rfl, .inl rfl, [], by simp, rfl⟩
    · split at h
      · dsimp only at h
        split at h
        · injection h with h; subst h; exact ⟨rfl, .inr rfl, [.poll], by simp, rfl⟩
        · obtain ⟨h1, h2, ps, h3, h4⟩ := ih h
          refine ⟨h1, h2, ps ++ [.poll], ?_, by rw [h4]; simp⟩
          intro op hop
          rcases List.mem_append.1 hop with hop | hop
          · exact h3 op hop
          · exact List.mem_singleton.1 hop
      · injection h with h; subst h; exact ⟨rfl, .inl rfl, [], by simp, rfl⟩

/-- The operations of the loop, whatever its end, and when the engine was started. -/
theorem moveLoop_started {c : Cfg} {p : Pins} {b : Buf} {env : MoveEnv} {fuel : Nat}
    {evs : List (Event F)} {ks : List Int} (hks : Stamps evs ks) (s : MoveSt) :
    ∀ r, moveLoop c p b env fuel evs s = r →
      (∀ op ∈ r.1.trace, op ∈ s.trace ∨ LoopOp op) ∧
      (.runStream ∈ r.1.trace → .runStream ∈ s.trace ∨
        (s.instant = true ∧ ∃ k ∈ ks, ∃ k0, (k0 = s.k0 ∨ k0 = s.k ∨ k0 ∈ ks) ∧ k - k0 > 100000)) := by
  induction hks generalizing s with
  | nil =>
    rintro r rfl
    exact ⟨fun op h => .inl h, fun h => .inl h⟩
  | @dir d evs ks _ ih =>
    rintro r rfl
    unfold moveLoop
    cases hw : moveWait env fuel s with
    | none => exact ⟨fun op h => .inl h, fun h => .inl h⟩
    | some s1 =>
      obtain ⟨w1, w2, ps, w3, w4⟩ := moveWait_more hw
      obtain ⟨-, -, -, w5⟩ := moveWait_same hw
      have hs1 : ∀ op ∈ s1.trace, op ∈ s.trace ∨ LoopOp op := by
        intro op hop
        rw [w4] at hop
        rcases List.mem_append.1 hop with hop | hop
        · exact .inr (.inl (w3 op hop))
        · exact .inl hop
      have hs1' : .runStream ∈ s1.trace → .runStream ∈ s.trace := by
        intro hop
        rw [w4] at hop
        rcases List.mem_append.1 hop with hop | hop
        · have := w3 _ hop; cases this
        · exact hop
      dsimp only
      cases hb : moveBody (F := F) c p b env (.dir d) s1 with
      | error e => exact ⟨hs1, fun h => .inl (hs1' h)⟩
      | ok s2 =>
        dsimp only
        obtain ⟨d', hd, rfl⟩ := moveAdd_ok hb
        obtain ⟨i1, i2⟩ := ih _ _ rfl
        refine ⟨fun op hop => ?_, fun hop => ?_⟩
        · rcases i1 op hop with h | h
          · rcases List.mem_cons.1 h with rfl | h
            · exact .inr (.inr (.inl ⟨_, _, rfl⟩))
            · exact hs1 op h
          · exact .inr h
        · rcases i2 hop with h | ⟨h, k, hk, k0, hk0, hgt⟩
          · rcases List.mem_cons.1 h with h | h
            · cases h
            · exact .inl (hs1' h)
          · refine .inr ⟨by rw [← w5]; exact h, k, hk, k0, ?_, hgt⟩
            rcases hk0 with h | h | h
            · rcases w2 with e | e
              · exact .inl (h.trans e)
              · exact .inr (.inl (h.trans e))
            · exact .inr (.inl (h.trans w1))
            · exact .inr (.inr h)
  | @pulse x τ evs ks hx _ ih =>
    rintro r rfl
    unfold moveLoop
    cases hw : moveWait env fuel s with
    | none => exact ⟨fun op h => .inl h, fun h => .inl h⟩
    | some s1 =>
      obtain ⟨w1, w2, ps, w3, w4⟩ := moveWait_more hw
      obtain ⟨-, -, -, w5⟩ := moveWait_same hw
      have hs1 : ∀ op ∈ s1.trace, op ∈ s.trace ∨ LoopOp op := by
        intro op hop
        rw [w4] at hop
        rcases List.mem_append.1 hop with hop | hop
        · exact .inr (.inl (w3 op hop))
        · exact .inl hop
      have hs1' : .runStream ∈ s1.trace → .runStream ∈ s.trace := by
        intro hop
        rw [w4] at hop
        rcases List.mem_append.1 hop with hop | hop
        · have := w3 _ hop; cases this
        · exact hop
      have hk01 : s1.k0 = s.k0 ∨ s1.k0 = s.k := w2
      dsimp only
      cases hb : moveBody c p b env (.pulse x) s1 with
      | error e => exact ⟨hs1, fun h => .inl (hs1' h)⟩
      | ok s2 =>
        dsimp only
        obtain ⟨ws, b1, b2, b3, b4, b5⟩ := moveBody_pulse_cases (minTime_stepsAt hx) hb
        obtain ⟨i1, i2⟩ := ih s2 _ rfl
        have hs2 : ∀ op ∈ s2.trace, op ∈ s.trace ∨ LoopOp op := by
          intro op hop
          have : op = .runStream ∨ op ∈ ws ∨ op ∈ s1.trace := by
            rcases b5 with ⟨e, -⟩ | ⟨-, e, -⟩ | ⟨-, -, -, -, e, -⟩ <;> rw [e] at hop <;>
              simp only [List.mem_append, List.mem_cons] at hop
            exacts [.inr hop, .inr hop, hop]
          rcases this with rfl | h | h
          · exact .inr (.inr (.inr rfl))
          · exact .inr (.inr (.inl (b1 op h)))
          · exact hs1 op h
        have hws : .runStream ∉ ws := fun h => by
          obtain ⟨_, _, e⟩ := b1 _ h
          cases e
        refine ⟨fun op hop => ?_, fun hop => ?_⟩
        · rcases i1 op hop with h | h
          · exact hs2 op h
          · exact .inr h
        · have lift : ∀ k0, (k0 = s2.k0 ∨ k0 = s2.k ∨ k0 ∈ ks) →
              (k0 = s.k0 ∨ k0 = s.k ∨ k0 ∈ PyNum.roundI (τ *ₚ PyNum.ofRat 1000000) :: ks) := by
            intro k0 h
            rcases h with h | h | h
            · rw [b4] at h
              rcases hk01 with e | e
              · exact .inl (h.trans e)
              · exact .inr (.inl (h.trans e))
            · exact .inr (.inr (List.mem_cons.2 (.inl (h.trans b2))))
            · exact .inr (.inr (List.mem_cons.2 (.inr h)))
          rcases i2 hop with h | ⟨h, k, hk, k0, hk0, hgt⟩
          · rcases b5 with ⟨e, -⟩ | ⟨-, e, -⟩ | ⟨-, c2, -, c4, e, -⟩
            · rw [e] at h
              rcases List.mem_append.1 h with h | h
              · exact absurd h hws
              · exact .inl (hs1' h)
            · rw [e] at h
              rcases List.mem_append.1 h with h | h
              · exact absurd h hws
              · exact .inl (hs1' h)
            · refine .inr ⟨by rw [← w5]; exact c2, _, List.mem_cons_self .., s1.k0, ?_, by rw [← b2]; exact c4⟩
              rcases hk01 with e | e
              · exact .inl e
              · exact .inr (.inl e)
          · refine .inr ⟨?_, k, List.mem_cons_of_mem _ hk, k0, lift k0 hk0, hgt⟩
            rw [← w5]
            rcases b5 with ⟨-, -, e, -⟩ | ⟨-, -, -, e⟩ | ⟨-, c2, -⟩
            · rw [← e]; exact h
            · rw [e] at h; cases h
            · exact c2

/-- One iteration with a pulse succeeds or runs out of memory. -/
theorem moveBody_memory {c : Cfg} {p : Pins} {b : Buf} {env : MoveEnv} {t : V4 (Option F)}
    {m : F} {s : MoveSt} (hb : b.base + b.size < 2 ^ 32) (hp : PinsOk p)
    (hlen : c.pulseLenUs < 2 ^ 26) (hm : minTime t = some m)
    (hk : PyNum.roundI (m *ₚ PyNum.ofRat 1000000) - s.prev < 2 ^ 26) :
    (∃ s', moveBody c p b env (.pulse t) s = .ok s' ∧ s'.dma.addr ≤ s.dma.addr + 128 ∧
      s'.prev = PyNum.roundI (m *ₚ PyNum.ofRat 1000000) + c.pulseLenUs) ∨
    (moveBody c p b env (.pulse t) s = .error .memory ∧ b.size < s.dma.addr + 128) := by
  simp only [moveBody, hm]
  generalize PyNum.roundI (m *ₚ PyNum.ofRat 1000000) = k at hk ⊢
  have fin : ∀ s1 : MoveSt, s1.dma.addr ≤ s.dma.addr + 32 →
      (∃ s', (do
        let s ← moveAdd (DmaGpio.addPulse b (stepMask p t) c.pulseLenUs) s1
        let s := { s with prev := k + c.pulseLenUs }
        if !s.isRan && s.instant && s.cur.isNone && decide (k - s.k0 > 100000) then
          if env.slow s.trace then return { s with instant := false }
          else return { s with trace := .runStream :: s.trace, isRan := true, live := [s.dma] }
        else return s : Except PyErr MoveSt) = .ok s' ∧
        s'.dma.addr ≤ s.dma.addr + 128 ∧ s'.prev = k + c.pulseLenUs) ∨
      ((do
        let s ← moveAdd (DmaGpio.addPulse b (stepMask p t) c.pulseLenUs) s1
        let s := { s with prev := k + c.pulseLenUs }
        if !s.isRan && s.instant && s.cur.isNone && decide (k - s.k0 > 100000) then
          if env.slow s.trace then return { s with instant := false }
          else return { s with trace := .runStream :: s.trace, isRan := true, live := [s.dma] }
        else return s : Except PyErr MoveSt) = .error .memory ∧ b.size < s.dma.addr + 128) := by
    intro s1 ha2
    by_cases hf : s1.dma.addr + 96 ≤ b.size
    · left
      obtain ⟨d', h1, h2⟩ := DmaGpio.addPulse_fits (s := s1.dma) (u := c.pulseLenUs) hb hf
        (stepMask_lt hp t) (by omega)
      obtain ⟨s2, h3, h4, h5⟩ := moveAdd_of (s := s1) h1
      rw [h3]
      simp only [bind, Except.bind]
      split
      · split <;> exact ⟨_, rfl, by dsimp only; rw [h4, h2]; omega, rfl⟩
      · exact ⟨_, rfl, by dsimp only; rw [h4, h2]; omega, rfl⟩
    · right
      refine ⟨?_, by omega⟩
      have : DmaGpio.addPulse b (stepMask p t) c.pulseLenUs s1.dma = .error .memory := by
        unfold DmaGpio.addPulse
        dsimp only
        rw [if_pos (by simp only [cbSize]; omega)]
        rfl
      unfold moveAdd
      rw [this]
      rfl
  by_cases hd : k - s.prev > 0
  · simp only [hd, if_true]
    by_cases hf : s.dma.addr + 32 ≤ b.size
    · obtain ⟨d', h1, h2⟩ := DmaGpio.addDelay_fits (s := s.dma) (u := (k - s.prev).toNat) hb
        hf (by omega)
      obtain ⟨s2, h3, h4, h5⟩ := moveAdd_of (s := { s with k := k }) h1
      rw [h3]
      exact fin s2 (by rw [h4, h2])
    · right
      refine ⟨?_, by omega⟩
      have : DmaGpio.addDelay b (k - s.prev).toNat s.dma = .error .memory := by
        unfold DmaGpio.addDelay
        dsimp only
        rw [if_pos (by simp only [cbSize]; omega)]
        rfl
      unfold moveAdd
      dsimp only
      rw [this]
      rfl
  · simp only [hd, if_false]
    exact fin { s with k := k } (by dsimp only; omega)

/-- The engine runs already, or will be started as soon as 100 ms are prepared. -/
def Early (s : MoveSt) : Prop :=
  .runStream ∈ s.trace ∨ (s.isRan = false ∧ s.instant = true ∧ s.k0 = 0 ∧ s.cur = none)

theorem moveWait_idle {env : MoveEnv} {n : Nat} {s : MoveSt} (h : s.cur = none) :
    moveWait env n s = some s := by
  cases n <;> simp [moveWait, h]

/-- With an idle engine the loop goes to the end of the pulses or of the memory. -/
theorem moveLoop_full {c : Cfg} {p : Pins} {b : Buf} {env : MoveEnv} {fuel : Nat}
    (hb : b.base + b.size < 2 ^ 32) (hp : PinsOk p) (hlen : c.pulseLenUs < 2 ^ 26)
    (hslow : ∀ tr, env.slow tr = false) :
    ∀ (evs : List (Event F)) (ks : List Int) (s : MoveSt) (l : List Blk), Stamps evs ks →
      (∀ ev ∈ evs, ∃ t, ev = .pulse t) → ShortGaps c.pulseLenUs s.prev ks → Holds b s.dma l →
      s.cur = none → Early s →
      (∃ s', moveLoop c p b env fuel evs s = (s', .running)) ∨
      ∃ s' ks' l', moveLoop c p b env fuel evs s = (s', .raised .memory) ∧ ks' <+: ks ∧
        b.size < s.dma.addr + 128 * (ks'.length + 1) ∧ Holds b s'.dma l' ∧ l <+: l' ∧
        ((∃ k ∈ ks', 100000 < k) → .runStream ∈ s'.trace) := by
  intro evs
  induction evs with
  | nil => intros; exact .inl ⟨_, rfl⟩
  | cons ev evs ih =>
    intro ks s l hks hpu hg hh hcur hq
    obtain ⟨t, rfl⟩ := hpu ev (by simp)
    cases hks with
    | @pulse _ τ _ ks hx hks =>
      obtain ⟨g1, g2⟩ := hg
      have hm := minTime_stepsAt hx
      simp only [moveLoop, moveWait_idle hcur]
      rcases moveBody_memory (c := c) (env := env) (s := s) hb hp hlen hm g1 with
        ⟨s2, b1, b2, b3⟩ | ⟨b1, b2⟩
      · rw [b1]
        dsimp only
        obtain ⟨ws, d1, d2, d3, d4, d5⟩ := moveBody_pulse_cases hm b1
        have hh2 := (moveBody_ok hh b1).1
        have hE : Early s2 ∧ (100000 < PyNum.roundI (τ *ₚ PyNum.ofRat 1000000) →
            .runStream ∈ s2.trace) := by
          rcases d5 with ⟨e, e1, e2, e3⟩ | ⟨⟨tr, hn⟩, -⟩ | ⟨-, -, -, -, e, -⟩
          · rcases hq with hq | ⟨q1, q2, q3, q4⟩
            · have : HalOp.runStream ∈ s2.trace := by rw [e]; exact List.mem_append_right _ hq
              exact ⟨.inl this, fun _ => this⟩
            · refine ⟨.inr ⟨e1.trans q1, e2.trans q2, d4.trans q3, d3.trans q4⟩, fun hk => ?_⟩
              exact absurd ⟨q1, q2, q4, by rw [d2, q3]; omega⟩ e3
          · rw [hslow] at hn; cases hn
          · have : HalOp.runStream ∈ s2.trace := by rw [e]; simp
            exact ⟨.inl this, fun _ => this⟩
        rcases ih ks s2 _ hks (fun ev hev => hpu ev (by simp [hev])) (by rw [b3]; exact g2) hh2
            (d3.trans hcur) hE.1 with ⟨s', k1⟩ | ⟨s', ks', l', k1, k2, k3, k4, k5, k6⟩
        · exact .inl ⟨s', k1⟩
        · refine .inr ⟨s', _ :: ks', l', k1, (List.cons_prefix_cons).2 ⟨rfl, k2⟩, ?_, k4,
            (List.prefix_append _ _).trans k5, ?_⟩
          · rw [List.length_cons]; omega
          · rintro ⟨k, hk, hgt⟩
            rcases List.mem_cons.1 hk with rfl | hk
            · have h6 := hE.2 hgt
              have : ∀ (evs : List (Event F)) (s : MoveSt), .runStream ∈ s.trace →
                  .runStream ∈ (moveLoop c p b env fuel evs s).1.trace := by
                intro evs
                induction evs with
                | nil => intro s h; exact h
                | cons ev evs ih =>
                  intro s h
                  unfold moveLoop
                  cases hw : moveWait env fuel s with
                  | none => exact h
                  | some s1 =>
                    obtain ⟨-, -, ps, -, w4⟩ := moveWait_more hw
                    have h1 : HalOp.runStream ∈ s1.trace := by
                      rw [w4]; exact List.mem_append_right _ h
                    dsimp only
                    cases hb : moveBody c p b env ev s1 with
                    | error e => exact h1
                    | ok s2 =>
                      dsimp only
                      refine ih s2 ?_
                      rcases moveBody_cases hb with ⟨x, y, d, -, rfl⟩ | ⟨k, s3, e1, m, d, -, e2⟩
                      · exact List.mem_cons_of_mem _ h1
                      · have h3 : HalOp.runStream ∈ s3.trace := by
                          rcases e1 with ⟨u, d, -, rfl⟩ | rfl
                          · exact List.mem_cons_of_mem _ h1
                          · exact h1
                        rcases e2 with rfl | rfl | ⟨-, -, rfl⟩
                        · exact List.mem_cons_of_mem _ h3
                        · exact List.mem_cons_of_mem _ h3
                        · exact List.mem_cons_self ..
              have h7 := this evs s2 h6
              rw [k1] at h7
              exact h7
            · exact k6 ⟨k, hk, hgt⟩
      · rw [b1]
        dsimp only
        refine .inr ⟨s, [], l, rfl, List.nil_prefix, by simpa using b2, hh, List.prefix_refl _, ?_⟩
        rintro ⟨k, hk, -⟩
        cases hk

/-- A pulse takes three control blocks at least. -/
theorem evsBlks_length {c : Cfg} {p : Pins} {evs : List (Event F)} {ks : List Int}
    (h : Stamps evs ks) : ∀ prev, 3 * ks.length ≤ (evsBlks c p prev evs).length := by
  induction h with
  | nil => intro; simp
  | dir _ ih =>
    intro prev
    simp only [evsBlks, List.length_append]
    have := ih (evBlks c p prev (Event.dir (F := F) ‹_›)).2
    omega
  | @pulse x τ evs ks hx _ ih =>
    intro prev
    simp only [evsBlks, List.length_append, List.length_cons]
    have h1 := ih (evBlks c p prev (.pulse x)).2
    have h2 : 3 ≤ (evBlks c p prev (.pulse x)).1.length := by
      simp only [evBlks, minTime_stepsAt hx, List.length_append, List.length_cons, List.length_nil]
      omega
    omega

/-- `move` with an idle engine and more pulses than the buffer can hold. -/
theorem move_full {c : Cfg} {p : Pins} {b : Buf} {env : MoveEnv} {fuel : Nat}
    (hb : b.base + b.size < 2 ^ 32) (hp : PinsOk p) (hlen : c.pulseLenUs < 2 ^ 26)
    (hslow : ∀ tr, env.slow tr = false) (hcb : ∀ tr, env.cb tr = none) (hf : 1 ≤ fuel)
    (hi : c.instantRun = true) (h32 : 32 ≤ b.size) {d : V4 Int} {r : List (Event F)} {ks : List Int}
    (hks : Stamps (.dir d :: r) ks) (hpu : ∀ ev ∈ r, ∃ t, ev = .pulse t)
    (hg : ShortGaps c.pulseLenUs 0 ks) (hbig : b.size < 96 * ks.length) (e : RunEnd)
    (mem : Nat → Word) :
    ∃ s ks' l, move c p b env fuel (.dir d :: r) e mem = (s, .raised .memory) ∧ ks' <+: ks ∧
      b.size < 32 + 128 * (ks'.length + 1) ∧ Holds b s.dma l ∧ l ≠ [] ∧
      ((∃ k ∈ ks', 100000 < k) → .runStream ∈ s.trace) := by
  obtain ⟨n, rfl⟩ : ∃ n, fuel = n + 1 := ⟨fuel - 1, by omega⟩
  obtain ⟨d', h1, h2⟩ := DmaGpio.addSetClear_fits (s := (⟨mem, 0⟩ : DmaSt)) hb
    (by simpa using h32) (dirMasks_lt hp d).1 (dirMasks_lt hp d).2
  have hw : moveWait env (n + 1) (moveInit c mem) =
      some { moveInit c mem with trace := [.poll, .enable], cur := none } := by
    simp [moveWait, moveInit, hcb, cbSize]
  have hh0 : Holds b (⟨mem, 0⟩ : DmaSt) [] := ⟨rfl, by simp, by simp⟩
  have hh1 := (addSetClear_ok hh0 h1).1
  cases hks with
  | dir hks =>
    have hloop : moveLoop c p b env (n + 1) (.dir d :: r) (moveInit c mem) =
        moveLoop c p b env (n + 1) r
          (upd { moveInit c mem with trace := [.poll, .enable], cur := none } d') := by
      rw [moveLoop, hw]
      dsimp only
      have : moveBody (F := F) c p b env (.dir d)
          { moveInit c mem with trace := [.poll, .enable], cur := none } =
          .ok (upd { moveInit c mem with trace := [.poll, .enable], cur := none } d') := by
        simp only [moveBody, moveAdd, moveInit, h1, upd]
        rfl
      rw [this]
    rcases moveLoop_full (env := env) (fuel := n + 1) hb hp hlen hslow r ks
        (upd { moveInit c mem with trace := [.poll, .enable], cur := none } d') _ hks hpu hg hh1 rfl
        (.inr ⟨rfl, hi, rfl, rfl⟩) with ⟨s', k1⟩ | ⟨s', ks', l', k1, k2, k3, k4, k5, k6⟩
    · have h4 := (moveLoop_ok hh1 k1).1
      have h5 := evsBlks_length (c := c) (p := p) hks 0
      have h6 : 32 * ([] ++ [Blk.sc (dirMasks p d).1 (dirMasks p d).2] ++ evsBlks c p 0 r).length ≤ b.size := by
        have := h4.1
        have := h4.2.1
        change s'.dma.addr = 32 * ([] ++ [Blk.sc (dirMasks p d).1 (dirMasks p d).2] ++ evsBlks c p 0 r).length at *
        omega
      rw [List.length_append] at h6
      omega
    · refine ⟨s', ks', l', ?_, k2, ?_, k4, ?_, k6⟩
      · unfold move
        rw [hloop, k1]
      · have : (upd { moveInit c mem with trace := [.poll, .enable], cur := none } d').dma.addr = 32 := by
          simpa [upd] using h2
        rw [this] at k3
        exact k3
      · rintro rfl
        simp at k5

end Hal

/-- A list of times at least `len` apart is long. -/
theorem spaced_reaches {len : Int} : ∀ {ks : List Int} {t : Int}, Spaced len t ks → ks ≠ [] →
    ∃ k ∈ ks, t + len * (ks.length - 1) ≤ k
  | [k], t, h, _ => ⟨k, by simp, by simpa using h.1⟩
  | k :: k' :: ks, t, h, _ => by
    obtain ⟨x, hx, hle⟩ := spaced_reaches (ks := k' :: ks) h.2 (by simp)
    refine ⟨x, List.mem_cons_of_mem _ hx, ?_⟩
    have := h.1
    simp only [List.length_cons] at hle ⊢
    push_cast at hle ⊢
    nlinarith

theorem spaced_prefix {len : Int} : ∀ {ks ks' : List Int} {t : Int}, ks' <+: ks → Spaced len t ks →
    Spaced len t ks'
  | _, [], _, _, _ => trivial
  | [], _ :: _, _, h, _ => by simp at h
  | k :: ks, k' :: ks', t, h, hs => by
    obtain ⟨rfl, h'⟩ := List.cons_prefix_cons.1 h
    exact ⟨hs.1, spaced_prefix h' hs.2⟩

end PyCNC
