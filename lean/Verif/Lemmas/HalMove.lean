import Verif.Spec.Lag
import Verif.Spec.Dma
import Verif.Lemmas.Dma
import Mathlib.Tactic.Linarith

/-!
# The program that `move` writes
-/

namespace PyCNC

open Spec

variable {F : Type} [PyNum F]

/-- The control blocks of one event, `prev` as in `move`. -/
def evBlks (c : Cfg) (p : Pins) (prev : Int) : Event F → List Blk × Int
  | .dir d => ([.sc (Hal.dirMasks p d).1 (Hal.dirMasks p d).2], prev)
  | .pulse t =>
    match minTime t with
    | none => ([], prev)
    | some m =>
      let k := PyNum.roundI (m *ₚ PyNum.ofRat 1000000)
      ((if k - prev > 0 then [.delay (k - prev).toNat] else []) ++
        [.sc (Hal.stepMask p t) 0, .delay c.pulseLenUs, .sc 0 (Hal.stepMask p t)],
        k + c.pulseLenUs)

/-- The control blocks of a list of events. -/
def evsBlks (c : Cfg) (p : Pins) : Int → List (Event F) → List Blk
  | _, [] => []
  | prev, ev :: evs => (evBlks c p prev ev).1 ++ evsBlks c p (evBlks c p prev ev).2 evs

namespace Hal

theorem moveAdd_ok {f : DmaSt → Except PyErr DmaSt} {s s' : MoveSt} (h : moveAdd f s = .ok s') :
    ∃ d, f s.dma = .ok d ∧
      s' = { s with
        dma := d
        trace := .write s.dma.addr (d.addr - s.dma.addr) :: s.trace
        live := if s.isRan then d :: s.live else [] } := by
  unfold moveAdd at h
  cases hf : f s.dma with
  | error e => rw [hf] at h; cases h
  | ok d =>
    rw [hf] at h
    injection h with h
    exact ⟨d, rfl, h.symm⟩

/-- Waiting changes neither the buffer nor `prev`. -/
theorem moveWait_same {env : MoveEnv} {n : Nat} {s s' : MoveSt} (h : moveWait env n s = some s') :
    s'.dma = s.dma ∧ s'.prev = s.prev ∧ s'.isRan = s.isRan ∧ s'.instant = s.instant := by
  induction n generalizing s with
  | zero =>
    unfold moveWait at h
    split at h
    · injection h with h; subst h; exact ⟨rfl, rfl, rfl, rfl⟩
    · split at h
      · cases h
      · injection h with h; subst h; exact ⟨rfl, rfl, rfl, rfl⟩
  | succ n ih =>
    unfold moveWait at h
    split at h
    · injection h with h; subst h; exact ⟨rfl, rfl, rfl, rfl⟩
    · split at h
      · dsimp only at h
        split at h
        · injection h with h; subst h; exact ⟨rfl, rfl, rfl, rfl⟩
        · have := ih h
          exact this
      · injection h with h; subst h; exact ⟨rfl, rfl, rfl, rfl⟩

/-- One iteration appends the blocks of its event. -/
theorem moveBody_ok {c : Cfg} {p : Pins} {b : Buf} {env : MoveEnv} {ev : Event F} {s s' : MoveSt}
    {l : List Blk} (hh : Holds b s.dma l) (h : moveBody c p b env ev s = .ok s') :
    Holds b s'.dma (l ++ (evBlks c p s.prev ev).1) ∧ s'.prev = (evBlks c p s.prev ev).2 ∧
      ∀ t, ev = .pulse t → minTime t ≠ none := by
  cases ev with
  | dir d =>
    obtain ⟨d', hd, rfl⟩ := moveAdd_ok h
    refine ⟨(addSetClear_ok hh hd).1, rfl, ?_⟩
    intro t ht; cases ht
  | pulse t =>
    simp only [moveBody] at h
    simp only [evBlks]
    cases hm : minTime t with
    | none => rw [hm] at h; cases h
    | some m =>
      rw [hm] at h
      simp only at h ⊢
      generalize PyNum.roundI (m *ₚ PyNum.ofRat 1000000) = k at h ⊢
      have hne : ∀ t', Event.pulse t = Event.pulse t' → minTime t' ≠ none := by
        intro t' ht'
        injection ht' with ht'
        rw [← ht', hm]; simp
      have fin : ∀ (s1 : MoveSt) (l1 : List Blk), Holds b s1.dma l1 → 
          (do
            let s ← moveAdd (DmaGpio.addPulse b (stepMask p t) c.pulseLenUs) s1
            let s := { s with prev := k + c.pulseLenUs }
            if !s.isRan && s.instant && s.cur.isNone && decide (k - s.k0 > 100000) then
              if env.slow s.trace then return { s with instant := false }
              else return { s with trace := .runStream :: s.trace, isRan := true, live := [s.dma] }
            else return s : Except PyErr MoveSt) = .ok s' →
          Holds b s'.dma (l1 ++ [.sc (stepMask p t) 0, .delay c.pulseLenUs, .sc 0 (stepMask p t)]) ∧
            s'.prev = k + c.pulseLenUs := by
        intro s1 l1 hh1 h1
        cases ha : moveAdd (DmaGpio.addPulse b (stepMask p t) c.pulseLenUs) s1 with
        | error e => rw [ha] at h1; cases h1
        | ok s2 =>
          rw [ha] at h1
          obtain ⟨d', hd, rfl⟩ := moveAdd_ok ha
          have hp := (addPulse_ok hh1 hd).1
          simp only [bind, Except.bind] at h1
          split at h1
          · split at h1 <;> (injection h1 with h1; subst h1; exact ⟨hp, rfl⟩)
          · injection h1 with h1; subst h1; exact ⟨hp, rfl⟩
      by_cases hk : k - s.prev > 0
      · simp only [hk, if_true] at h ⊢
        cases ha : moveAdd (DmaGpio.addDelay b (k - s.prev).toNat) { s with k := k } with
        | error e => rw [ha] at h; cases h
        | ok s2 =>
          rw [ha] at h
          obtain ⟨d', hd, rfl⟩ := moveAdd_ok ha
          have hp := (addDelay_ok (s := s.dma) hh hd).1
          obtain ⟨f1, f2⟩ := fin _ _ hp h
          refine ⟨?_, f2, hne⟩
          rw [← List.append_assoc]
          exact f1
      · simp only [hk, if_false] at h ⊢
        obtain ⟨f1, f2⟩ := fin { s with k := k } l hh h
        exact ⟨by simpa using f1, f2, hne⟩

theorem moveLoop_ok {c : Cfg} {p : Pins} {b : Buf} {env : MoveEnv} {fuel : Nat}
    {evs : List (Event F)} {s s' : MoveSt} {l : List Blk} (hh : Holds b s.dma l)
    (h : moveLoop c p b env fuel evs s = (s', .running)) :
    Holds b s'.dma (l ++ evsBlks c p s.prev evs) ∧
      ∀ t, Event.pulse t ∈ evs → minTime t ≠ none := by
  induction evs generalizing s l with
  | nil =>
    injection h with h1 h2
    subst h1
    simpa [evsBlks] using hh
  | cons ev evs ih =>
    unfold moveLoop at h
    split at h
    · injection h with h1 h2; cases h2
    · rename_i s1 hw
      obtain ⟨w1, w2, -, -⟩ := moveWait_same hw
      split at h
      · injection h with h1 h2; cases h2
      · rename_i s2 hb
        rw [← w1] at hh
        obtain ⟨b1, b2, b3⟩ := moveBody_ok hh hb
        obtain ⟨i1, i2⟩ := ih b1 h
        rw [w2] at b1 b2 i1
        rw [b2] at i1
        refine ⟨?_, ?_⟩
        · rw [evsBlks, ← List.append_assoc]; exact i1
        · intro t ht
          rcases List.mem_cons.mp ht with ht | ht
          · exact b3 t ht.symm
          · exact i2 t ht

theorem moveLoop_not_done {c : Cfg} {p : Pins} {b : Buf} {env : MoveEnv} {fuel : Nat}
    {evs : List (Event F)} {s s' : MoveSt} :
    moveLoop c p b env fuel evs s ≠ (s', .done) := by
  intro h
  induction evs generalizing s with
  | nil => injection h with h1 h2; cases h2
  | cons ev evs ih =>
    unfold moveLoop at h
    split at h
    · injection h with h1 h2; cases h2
    · split at h
      · injection h with h1 h2; cases h2
      · exact ih h

/-- A finished `move` leaves a finalized program of all its events. -/
theorem move_ok {c : Cfg} {p : Pins} {b : Buf} {env : MoveEnv} {fuel : Nat}
    {evs : List (Event F)} {re : RunEnd} {mem : Nat → Word} {s : MoveSt}
    (h : move c p b env fuel evs re mem = (s, .done)) :
    ∃ d, Holds b d (evsBlks c p 0 evs) ∧ evsBlks c p 0 evs ≠ [] ∧ s.dma = DmaGpio.finalize d ∧
      re = .done ∧ ∀ t, Event.pulse t ∈ evs → minTime t ≠ none := by
  unfold move at h
  have h0 : Holds b (moveInit c mem).dma [] :=
    ⟨rfl, Nat.zero_le _, fun i hi => absurd hi (Nat.not_lt_zero _)⟩
  split at h
  · rename_i s1 hl
    obtain ⟨h1, h2⟩ := moveLoop_ok h0 hl
    rw [List.nil_append] at h1
    change Holds b s1.dma (evsBlks c p 0 evs) at h1
    cases re with
    | raised e => injection h with _ h; cases h
    | unfinished => injection h with _ h; cases h
    | done =>
      have hne : s1.isRan = true ∨ s1.dma.addr ≠ 0 → evsBlks c p 0 evs ≠ [] := by
        intro hc he
        rcases hc with hr | ha
        · cases evs with
          | nil =>
            injection hl with hl _
            rw [← hl] at hr; cases hr
          | cons ev evs =>
            rw [evsBlks] at he
            have he1 := (List.append_eq_nil_iff.mp he).1
            cases ev with
            | dir d => cases he1
            | pulse t =>
              have := h2 t (List.mem_cons_self ..)
              simp only [evBlks] at he1
              cases hm : minTime t with
              | none => exact this hm
              | some m => rw [hm] at he1; simp at he1
        · have := h1.1
          rw [he] at this
          exact ha this
      simp only [moveFinish] at h
      split at h
      · rename_i hr
        injection h with h _
        subst h
        exact ⟨s1.dma, h1, hne (Or.inl hr), rfl, rfl, h2⟩
      · split at h
        · injection h with _ h; cases h
        · rename_i ha
          injection h with h _
          subst h
          exact ⟨s1.dma, h1, hne (Or.inr ha), rfl, rfl, h2⟩
  · exact absurd h moveLoop_not_done

end Hal

/-! ### Masks -/

theorem mask_bit (a : Nat) (q : Nat) (hq : q < 32) :
    (BitVec.ofNat 32 a).getLsbD q = a.testBit q := by
  rw [BitVec.getLsbD_ofNat]; simp [hq]

theorem dirAxis_bits (d : Int) (pin q : Nat) (m : Nat × Nat) :
    (((Hal.dirAxis d pin m).1.testBit q = true) ↔ (m.1.testBit q = true ∨ (d < 0 ∧ pin = q))) ∧
    (((Hal.dirAxis d pin m).2.testBit q = true) ↔ (m.2.testBit q = true ∨ (0 < d ∧ pin = q))) := by
  unfold Hal.dirAxis
  split
  · rename_i h
    have : ¬ d < 0 := by omega
    simp [h, this, Nat.testBit_or, Nat.testBit_two_pow]
  · split
    · rename_i h1 h
      have : ¬ 0 < d := by omega
      simp [h, this, Nat.testBit_or, Nat.testBit_two_pow]
    · rename_i h1 h2
      have : ¬ 0 < d := by omega
      simp [h2, this]

theorem dirMasks_covers (p : Pins) (d : V4 Int) :
    Covers (BitVec.ofNat 32 (Hal.dirMasks p d).1) (fun q => ∃ ax, d.get ax < 0 ∧ p.dir.get ax = q) ∧
    Covers (BitVec.ofNat 32 (Hal.dirMasks p d).2) (fun q => ∃ ax, 0 < d.get ax ∧ p.dir.get ax = q) := by
  constructor <;>
  · intro q hq
    rw [mask_bit _ _ hq, Hal.dirMasks]
    simp only [dirAxis_bits, Nat.zero_testBit, Bool.false_eq_true, false_or]
    constructor
    · rintro (((h | h) | h) | h)
      · exact ⟨.x, h⟩
      · exact ⟨.y, h⟩
      · exact ⟨.z, h⟩
      · exact ⟨.e, h⟩
    · rintro ⟨ax, h⟩
      cases ax <;> simp only [V4.get] at h <;> tauto

omit [PyNum F] in
theorem stepMask_covers (p : Pins) (t : V4 (Option F)) :
    Covers (BitVec.ofNat 32 (Hal.stepMask p t))
      (fun q => ∃ ax, (t.get ax).isSome = true ∧ p.step.get ax = q) := by
  intro q hq
  have key : ∀ (b : Bool) (m pin : Nat),
      ((if b = true then m ||| 2 ^ pin else m).testBit q = true) ↔
        (m.testBit q = true ∨ (b = true ∧ pin = q)) := by
    intro b m pin
    cases b <;> simp [Nat.testBit_or, Nat.testBit_two_pow]
  rw [mask_bit _ _ hq]
  simp only [Hal.stepMask, key, Nat.zero_testBit, Bool.false_eq_true, false_or]
  constructor
  · rintro (((h | h) | h) | h)
    · exact ⟨.x, h⟩
    · exact ⟨.y, h⟩
    · exact ⟨.z, h⟩
    · exact ⟨.e, h⟩
  · rintro ⟨ax, h⟩
    cases ax <;> simp only [V4.get] at h <;> tauto

theorem minTime_isSome {t : V4 (Option F)} (h : minTime t ≠ none) : ∃ ax, (t.get ax).isSome = true := by
  by_contra hc
  push Not at hc
  have e : ∀ ax, t.get ax = none := by
    intro ax
    have := hc ax
    simpa using this
  have hx := e .x
  have hy := e .y
  have hz := e .z
  have he := e .e
  simp only [V4.get] at hx hy hz he
  exact h (by simp [minTime, hx, hy, hz, he])

theorem minTime_stepsAt {t : V4 (Option F)} {τ : F} (h : StepsAt τ (.pulse t)) :
    minTime t = some τ := by
  obtain ⟨⟨ax, hax⟩, hall⟩ := h
  have e : ∀ ax, t.get ax = none ∨ t.get ax = some τ := by
    intro ax
    cases hg : t.get ax with
    | none => exact Or.inl rfl
    | some v => exact Or.inr (by rw [hall ax v hg])
  have hx := e .x
  have hy := e .y
  have hz := e .z
  have he := e .e
  simp only [V4.get] at hx hy hz he
  rcases hx with hx | hx <;> rcases hy with hy | hy <;> rcases hz with hz | hz <;>
    rcases he with he | he <;> simp [minTime, hx, hy, hz, he]
  cases ax <;> simp_all [V4.get]

theorem mask_ne_zero {m : Word} {P : Nat → Prop} (h : Covers m P) {q : Nat} (hq : q < 32)
    (hP : P q) : m ≠ 0#32 := by
  intro h0
  have := (h q hq).mpr hP
  rw [h0] at this
  simp at this

/-! ### The log of a program -/

theorem edges_append (a b : List (Nat × Nat × Word)) : edges (a ++ b) = edges a ++ edges b := by
  induction a with
  | nil => rfl
  | cons x a ih =>
    obtain ⟨t, o, m⟩ := x
    simp only [List.cons_append, edges, ih, List.append_assoc]

/-- The log that a program adds, oldest first, and its end time. -/
def blkLog (t : Nat) : List Blk → List (Nat × Nat × Word)
  | [] => []
  | .sc s c :: l =>
    (t, gpioSet, BitVec.ofNat 32 s) :: (t, gpioClear, BitVec.ofNat 32 c) :: blkLog t l
  | .delay us :: l => blkLog (t + us * 16 % 2 ^ 30 / 16) l

theorem foldl_log (l : List Blk) (w : World) :
    (l.foldl Blk.eff w).log = (blkLog w.time l).reverse ++ w.log := by
  induction l generalizing w with
  | nil => rfl
  | cons x l ih =>
    rw [List.foldl_cons, ih]
    cases x with
    | sc s c => simp [Blk.eff, blkLog]
    | delay us => simp [Blk.eff, blkLog]

theorem blkLog_outputs (l : List Blk) (t : Nat) : OnlyOutputs (blkLog t l) := by
  induction l generalizing t with
  | nil => intro e he; cases he
  | cons x l ih =>
    cases x with
    | sc s c =>
      intro e he
      simp only [blkLog, List.mem_cons] at he
      rcases he with rfl | rfl | he
      · exact Or.inl rfl
      · exact Or.inr rfl
      · exact ih _ e he
    | delay us => exact ih _

theorem edges_sc (t s c : Nat) (l : List (Nat × Nat × Word)) :
    edges ((t, gpioSet, BitVec.ofNat 32 s) :: (t, gpioClear, BitVec.ofNat 32 c) :: l) =
      edge t true (BitVec.ofNat 32 s) ++ edge t false (BitVec.ofNat 32 c) ++ edges l := by
  simp [edges]

/-- The program plays its events. -/
theorem plays_lags {c : Cfg} {p : Pins} (hp : PinsOk p) (hlen : c.pulseLenUs < 2 ^ 26)
    (evs : List (Event F)) (hne : ∀ t, Event.pulse t ∈ evs → minTime t ≠ none) (prev : Int)
    (t : Nat) :
    ∃ Ts, Plays p c.pulseLenUs t evs (edges (blkLog t (evsBlks c p prev evs))) Ts ∧
      ∀ ks, Stamps evs ks → ShortGaps c.pulseLenUs prev ks →
        Ts.map (fun T : Nat => (T : Int)) =
          List.zipWith (· + ·) ks (lags c.pulseLenUs prev (t - prev) ks) := by
  induction evs generalizing prev t with
  | nil =>
    refine ⟨[], Plays.nil t, ?_⟩
    intro ks hks _
    cases hks
    rfl
  | cons ev evs ih =>
    have hne' : ∀ t, Event.pulse t ∈ evs → minTime t ≠ none :=
      fun t ht => hne t (List.mem_cons_of_mem _ ht)
    cases ev with
    | dir d =>
      obtain ⟨Ts, h1, h2⟩ := ih hne' prev t
      refine ⟨Ts, ?_, ?_⟩
      · simp only [evsBlks, evBlks, List.cons_append, List.nil_append, blkLog, edges_sc]
        exact Plays.dir (dirMasks_covers p d).1 (dirMasks_covers p d).2 h1
      · intro ks hks
        cases hks with
        | dir hks => exact h2 ks hks
    | pulse x =>
      have hx := hne x (List.mem_cons_self ..)
      obtain ⟨ax, hax⟩ := minTime_isSome hx
      have hm0 : BitVec.ofNat 32 (Hal.stepMask p x) ≠ 0#32 :=
        mask_ne_zero (stepMask_covers p x) (hp ax).1 ⟨ax, hax, rfl⟩
      cases hm : minTime x with
      | none => exact absurd hm hx
      | some m =>
        generalize hk : PyNum.roundI (m *ₚ PyNum.ofRat 1000000) = k
        -- the time after the pause
        obtain ⟨T, hT, hTl, hTe⟩ : ∃ T, t ≤ T ∧
            edges (blkLog t (evsBlks c p prev (.pulse x :: evs))) =
              edges (blkLog T (.sc (Hal.stepMask p x) 0 :: .delay c.pulseLenUs ::
                .sc 0 (Hal.stepMask p x) :: evsBlks c p (k + c.pulseLenUs) evs)) ∧
            (k - prev < 2 ^ 26 → (T : Int) = t + max 0 (k - prev)) := by
          by_cases hkp : k - prev > 0
          · refine ⟨t + (k - prev).toNat * 16 % 2 ^ 30 / 16, by omega, ?_, ?_⟩
            · simp only [evsBlks, evBlks, hm, hk, hkp, if_true, List.cons_append,
                List.nil_append, blkLog]
            · intro hs
              rw [Nat.mod_eq_of_lt (by omega), Nat.mul_div_cancel _ (by norm_num)]
              omega
          · refine ⟨t, le_refl _, ?_, ?_⟩
            · simp only [evsBlks, evBlks, hm, hk, hkp, if_false, List.cons_append,
                List.nil_append]
            · intro _; omega
        obtain ⟨Ts, h1, h2⟩ := ih hne' (k + c.pulseLenUs) (T + c.pulseLenUs)
        refine ⟨T :: Ts, ?_, ?_⟩
        · have hl : T + c.pulseLenUs * 16 % 2 ^ 30 / 16 = T + c.pulseLenUs := by
            rw [Nat.mod_eq_of_lt (by omega), Nat.mul_div_cancel _ (by norm_num)]
          rw [hTl]
          simp only [blkLog, edges_sc, hl]
          have z : ∀ t l, edge t l (BitVec.ofNat 32 0) = [] := fun t l => by simp [edge]
          have nz : ∀ t l, edge t l (BitVec.ofNat 32 (Hal.stepMask p x)) =
              [(t, l, BitVec.ofNat 32 (Hal.stepMask p x))] := fun t l => by
            simp only [edge, if_neg hm0]
          simp only [z, nz, List.append_nil, List.nil_append, List.cons_append]
          exact Plays.pulse hT (stepMask_covers p x) hm0 h1
        · intro ks hks hgap
          cases hks with
          | pulse hτ hks =>
            rename_i τ ks
            have hτm : τ = m := by
              have := minTime_stepsAt hτ
              rw [hm] at this
              exact (Option.some.inj this).symm
            subst hτm
            rw [hk] at hgap ⊢
            obtain ⟨g1, g2⟩ := hgap
            have hTe := hTe g1
            have e1 : (T : Int) = k + (t - prev + max 0 (prev - k)) := by omega
            have e2 : ((T + c.pulseLenUs : ℕ) : Int) - (k + c.pulseLenUs) =
                t - prev + max 0 (prev - k) := by push_cast; omega
            have := h2 ks hks g2
            rw [e2] at this
            rw [List.map_cons, this, lags, List.zipWith_cons_cons, e1]

theorem lags_nonneg {len : Int} : ∀ {ks : List Int} {t l : Int}, 0 ≤ l → ∀ x ∈ lags len t l ks, 0 ≤ x
  | [], _, _, _, x, hx => by cases hx
  | k :: ks, t, l, hl, x, hx => by
    rcases List.mem_cons.1 hx with rfl | hx
    · omega
    · exact lags_nonneg (by omega) x hx

theorem lags_length {len : Int} : ∀ (ks : List Int) (t l : Int), (lags len t l ks).length = ks.length
  | [], _, _ => rfl
  | k :: ks, t, l => by rw [lags, List.length_cons, lags_length ks, List.length_cons]

theorem lags_late {len : Int} : ∀ {ks : List Int} {Ts : List Nat} {t l : Int}, 0 ≤ l →
    Ts.map (fun T : Nat => (T : Int)) = List.zipWith (· + ·) ks (lags len t l ks) →
    List.Forall₂ (fun (k : Int) (T : Nat) => k ≤ T) ks Ts
  | [], [], _, _, _, _ => List.Forall₂.nil
  | [], _ :: _, _, _, _, h => by cases h
  | _ :: _, [], _, _, _, h => by cases h
  | k :: ks, T :: Ts, t, l, hl, h => by
    rw [List.map_cons, lags, List.zipWith_cons_cons, List.cons.injEq] at h
    exact List.Forall₂.cons (by omega) (lags_late (by omega) h.2)

theorem lags_spaced {len : Int} : ∀ {ks : List Int} {t : Int}, Spaced len t ks →
    List.zipWith (· + ·) ks (lags len t 0 ks) = ks
  | [], _, _ => rfl
  | k :: ks, t, h => by
    have e : (0 : Int) + max 0 (t - k) = 0 := by have := h.1; omega
    rw [lags, e, List.zipWith_cons_cons, lags_spaced h.2, add_zero]

/-- The program plays its events, in time if they are far enough apart. -/
theorem plays_evs {c : Cfg} {p : Pins} (hp : PinsOk p) (hlen : c.pulseLenUs < 2 ^ 26)
    (evs : List (Event F)) (hne : ∀ t, Event.pulse t ∈ evs → minTime t ≠ none) (prev : Int)
    (t : Nat) :
    ∃ Ts, Plays p c.pulseLenUs t evs (edges (blkLog t (evsBlks c p prev evs))) Ts ∧
      ∀ ks, Stamps evs ks → ShortGaps c.pulseLenUs prev ks → prev ≤ t →
        List.Forall₂ (fun (k : Int) (T : Nat) => k ≤ T) ks Ts ∧
        (prev = t → Spaced c.pulseLenUs prev ks → Ts.map (fun T : Nat => (T : Int)) = ks) := by
  obtain ⟨Ts, h1, h2⟩ := plays_lags (c := c) hp hlen evs hne prev t
  refine ⟨Ts, h1, fun ks hks hg hle => ⟨lags_late (by omega) (h2 ks hks hg), fun he hs => ?_⟩⟩
  rw [h2 ks hks hg, show (t : Int) - prev = 0 by omega, lags_spaced hs]

end PyCNC
