import Verif.Lemmas.HalMove

/-!
# Streaming and the order of hardware accesses in `move`
-/

namespace PyCNC

open Spec

variable {F : Type} [PyNum F]

namespace Hal

/-- The state after a successful `add_*` call. -/
def upd (s : MoveSt) (d : DmaSt) : MoveSt :=
  { s with
    dma := d
    trace := .write s.dma.addr (d.addr - s.dma.addr) :: s.trace
    live := if s.isRan then d :: s.live else [] }

/-- The steps of one iteration of the loop, after waiting. -/
theorem moveBody_cases {c : Cfg} {p : Pins} {b : Buf} {env : MoveEnv} {ev : Event F}
    {s s' : MoveSt} (h : moveBody c p b env ev s = .ok s') :
    (∃ x y d, DmaGpio.addSetClear b x y s.dma = .ok d ∧ s' = upd s d) ∨
    ∃ (k : Int) (s1 : MoveSt), 
      ((∃ u d, DmaGpio.addDelay b u s.dma = .ok d ∧ s1 = upd { s with k := k } d) ∨
        s1 = { s with k := k }) ∧
      ∃ m d, DmaGpio.addPulse b m c.pulseLenUs s1.dma = .ok d ∧
        (s' = { upd s1 d with prev := k + c.pulseLenUs } ∨
         (s' = { upd s1 d with prev := k + c.pulseLenUs, instant := false }) ∨
         (s.isRan = false ∧ s.cur = none ∧
          s' = { upd s1 d with
            prev := k + c.pulseLenUs
            trace := .runStream :: (upd s1 d).trace
            isRan := true
            live := [d] })) := by
  cases ev with
  | dir d =>
    obtain ⟨d', hd, rfl⟩ := moveAdd_ok h
    exact Or.inl ⟨_, _, d', hd, rfl⟩
  | pulse t =>
    right
    simp only [moveBody] at h
    cases hm : minTime t with
    | none => rw [hm] at h; cases h
    | some m =>
      rw [hm] at h
      simp only at h ⊢
      generalize PyNum.roundI (m *ₚ PyNum.ofRat 1000000) = k at h ⊢
      refine ⟨k, ?_⟩
      have fin : ∀ (s1 : MoveSt), s1.isRan = s.isRan → s1.cur = s.cur →
          (do
            let s ← moveAdd (DmaGpio.addPulse b (stepMask p t) c.pulseLenUs) s1
            let s := { s with prev := k + c.pulseLenUs }
            if !s.isRan && s.instant && s.cur.isNone && decide (k - s.k0 > 100000) then
              if env.slow s.trace then return { s with instant := false }
              else return { s with trace := .runStream :: s.trace, isRan := true, live := [s.dma] }
            else return s : Except PyErr MoveSt) = .ok s' →
          ∃ m d, DmaGpio.addPulse b m c.pulseLenUs s1.dma = .ok d ∧
            (s' = { upd s1 d with prev := k + c.pulseLenUs } ∨
             (s' = { upd s1 d with prev := k + c.pulseLenUs, instant := false }) ∨
             (s.isRan = false ∧ s.cur = none ∧
              s' = { upd s1 d with
                prev := k + c.pulseLenUs
                trace := .runStream :: (upd s1 d).trace
                isRan := true
                live := [d] })) := by
        intro s1 e1 e2 h1
        cases ha : moveAdd (DmaGpio.addPulse b (stepMask p t) c.pulseLenUs) s1 with
        | error e => rw [ha] at h1; cases h1
        | ok s2 =>
          rw [ha] at h1
          obtain ⟨d', hd, rfl⟩ := moveAdd_ok ha
          refine ⟨_, d', hd, ?_⟩
          simp only [bind, Except.bind] at h1
          split at h1
          · rename_i hc
            split at h1
            · injection h1 with h1
              exact Or.inr (Or.inl h1.symm)
            · injection h1 with h1
              simp only [Bool.and_eq_true, Bool.not_eq_true', Option.isNone_iff_eq_none] at hc
              exact Or.inr (Or.inr ⟨by rw [← e1]; exact hc.1.1.1, by rw [← e2]; exact hc.1.2, h1.symm⟩)
          · injection h1 with h1
            exact Or.inl h1.symm
      by_cases hk : k - s.prev > 0
      · simp only [hk, if_true] at h
        cases ha : moveAdd (DmaGpio.addDelay b (k - s.prev).toNat) { s with k := k } with
        | error e => rw [ha] at h; cases h
        | ok s2 =>
          rw [ha] at h
          obtain ⟨d', hd, rfl⟩ := moveAdd_ok ha
          exact ⟨_, Or.inl ⟨_, d', hd, rfl⟩, fin _ rfl rfl h⟩
      · simp only [hk, if_false] at h
        exact ⟨_, Or.inr rfl, fin { s with k := k } rfl rfl h⟩

/-! ### Buffer states while the engine runs -/

/-- Every recorded state of the buffer holds a first part of the program. -/
def LiveOk (b : Buf) (s : MoveSt) (l : List Blk) : Prop :=
  ∀ d ∈ s.live, ∃ l1 l2, Holds b d l1 ∧ l = l1 ++ l2

theorem LiveOk.mono {b : Buf} {s : MoveSt} {l l' : List Blk} (h : LiveOk b s l) :
    LiveOk b s (l ++ l') := by
  intro d hd
  obtain ⟨l1, l2, h1, h2⟩ := h d hd
  exact ⟨l1, l2 ++ l', h1, by rw [h2, List.append_assoc]⟩

theorem LiveOk.upd {b : Buf} {s : MoveSt} {l l' : List Blk} {d : DmaSt} (h : LiveOk b s l)
    (hd : Holds b d (l ++ l')) : LiveOk b (upd s d) (l ++ l') := by
  intro d' hd'
  simp only [Hal.upd] at hd'
  split at hd'
  · rcases List.mem_cons.mp hd' with rfl | hd'
    · exact ⟨_, [], hd, by simp⟩
    · exact h.mono d' hd'
  · cases hd'

theorem moveBody_live {c : Cfg} {p : Pins} {b : Buf} {env : MoveEnv} {ev : Event F}
    {s s' : MoveSt} {l : List Blk} (hh : Holds b s.dma l) (hl : LiveOk b s l)
    (h : moveBody c p b env ev s = .ok s') :
    LiveOk b s' (l ++ (evBlks c p s.prev ev).1) := by
  have hdma := (moveBody_ok hh h).1
  cases ev with
  | dir d =>
    obtain ⟨d', hd, rfl⟩ := moveAdd_ok h
    exact LiveOk.upd (s := s) hl (addSetClear_ok hh hd).1
  | pulse t =>
    have hs' := h
    simp only [moveBody] at h
    simp only [evBlks] at hdma ⊢
    cases hm : minTime t with
    | none => rw [hm] at h; cases h
    | some m =>
      rw [hm] at h hdma
      simp only at h hdma ⊢
      generalize PyNum.roundI (m *ₚ PyNum.ofRat 1000000) = k at h hdma ⊢
      have fin : ∀ (s1 : MoveSt) (l1 : List Blk), Holds b s1.dma l1 → LiveOk b s1 l1 →
          (do
            let s ← moveAdd (DmaGpio.addPulse b (stepMask p t) c.pulseLenUs) s1
            let s := { s with prev := k + c.pulseLenUs }
            if !s.isRan && s.instant && s.cur.isNone && decide (k - s.k0 > 100000) then
              if env.slow s.trace then return { s with instant := false }
              else return { s with trace := .runStream :: s.trace, isRan := true, live := [s.dma] }
            else return s : Except PyErr MoveSt) = .ok s' →
          LiveOk b s' (l1 ++ [.sc (stepMask p t) 0, .delay c.pulseLenUs, .sc 0 (stepMask p t)]) := by
        intro s1 l1 hh1 hl1 h1
        cases ha : moveAdd (DmaGpio.addPulse b (stepMask p t) c.pulseLenUs) s1 with
        | error e => rw [ha] at h1; cases h1
        | ok s2 =>
          rw [ha] at h1
          obtain ⟨d', hd, rfl⟩ := moveAdd_ok ha
          have hp := (addPulse_ok hh1 hd).1
          have hu := LiveOk.upd (s := s1) hl1 hp
          simp only [bind, Except.bind] at h1
          split at h1
          · split at h1
            · injection h1 with h1; subst h1; exact hu
            · injection h1 with h1; subst h1
              intro d2 hd2
              have : d2 = d' := by simpa using hd2
              subst this
              exact ⟨_, [], hp, by simp⟩
          · injection h1 with h1; subst h1; exact hu
      by_cases hk : k - s.prev > 0
      · simp only [hk, if_true] at h ⊢
        cases ha : moveAdd (DmaGpio.addDelay b (k - s.prev).toNat) { s with k := k } with
        | error e => rw [ha] at h; cases h
        | ok s2 =>
          rw [ha] at h
          obtain ⟨d', hd, rfl⟩ := moveAdd_ok ha
          have hp := (addDelay_ok (s := s.dma) hh hd).1
          have hu : LiveOk b (Hal.upd { s with k := k } d') _ := LiveOk.upd (s := { s with k := k }) hl hp
          rw [← List.append_assoc]
          exact fin _ _ hp hu h
      · simp only [hk, if_false, List.nil_append] at h ⊢
        exact fin { s with k := k } l hh hl h

theorem moveWait_live {env : MoveEnv} {n : Nat} {s s' : MoveSt} (h : moveWait env n s = some s') :
    s'.live = s.live := by
  induction n generalizing s with
  | zero =>
    unfold moveWait at h
    split at h
    · injection h with h; subst h; rfl
    · split at h
      · cases h
      · injection h with h; subst h; rfl
  | succ n ih =>
    unfold moveWait at h
    split at h
    · injection h with h; subst h; rfl
    · split at h
      · dsimp only at h
        split at h
        · injection h with h; subst h; rfl
        · have := ih h
          exact this
      · injection h with h; subst h; rfl

theorem moveLoop_live {c : Cfg} {p : Pins} {b : Buf} {env : MoveEnv} {fuel : Nat}
    {evs : List (Event F)} {s s' : MoveSt} {e : MoveEnd} {l : List Blk} (hh : Holds b s.dma l)
    (hl : LiveOk b s l) (h : moveLoop c p b env fuel evs s = (s', e)) :
    ∃ l', Holds b s'.dma (l ++ l') ∧ LiveOk b s' (l ++ l') ∧
      (e = .running → l' = evsBlks c p s.prev evs) := by
  induction evs generalizing s l with
  | nil =>
    injection h with h1 h2
    subst h1
    exact ⟨[], by simpa using hh, by simpa using hl, fun _ => rfl⟩
  | cons ev evs ih =>
    unfold moveLoop at h
    split at h
    · injection h with h1 h2
      subst h1
      exact ⟨[], by simpa using hh, by simpa using hl, fun he => by rw [he] at h2; cases h2⟩
    · rename_i s1 hw
      obtain ⟨w1, w2, -, -⟩ := moveWait_same hw
      have w3 := moveWait_live hw
      rw [← w1] at hh
      replace hl : LiveOk b s1 l := by unfold LiveOk; rw [w3]; exact hl
      split at h
      · injection h with h1 h2
        subst h1
        exact ⟨[], by simpa using hh, by simpa using hl, fun he => by rw [he] at h2; cases h2⟩
      · rename_i s2 hb
        obtain ⟨b1, b2, -⟩ := moveBody_ok hh hb
        obtain ⟨l', i1, i2, i3⟩ := ih b1 (moveBody_live hh hl hb) h
        refine ⟨_ ++ l', by rw [← List.append_assoc]; exact i1,
          by rw [← List.append_assoc]; exact i2, ?_⟩
        intro he
        rw [i3 he, evsBlks, b2, w2]

/-- The buffer states of a finished `move`: first parts of the program, then the finalized
program. -/
theorem move_live {c : Cfg} {p : Pins} {b : Buf} {env : MoveEnv} {fuel : Nat}
    {evs : List (Event F)} {re : RunEnd} {mem : Nat → Word} {s : MoveSt}
    (h : move c p b env fuel evs re mem = (s, .done)) :
    ∃ d ds, Holds b d (evsBlks c p 0 evs) ∧ s.live = DmaGpio.finalize d :: ds ∧
      ∀ x ∈ ds, ∃ l1 l2, Holds b x l1 ∧ evsBlks c p 0 evs = l1 ++ l2 := by
  unfold move at h
  have h0 : Holds b (moveInit c mem).dma [] :=
    ⟨rfl, Nat.zero_le _, fun i hi => absurd hi (Nat.not_lt_zero _)⟩
  split at h
  · rename_i s1 hl
    have h1 := (moveLoop_ok h0 hl).1
    rw [List.nil_append] at h1
    change Holds b s1.dma (evsBlks c p 0 evs) at h1
    have h3 : LiveOk b s1 (evsBlks c p 0 evs) := by
      have : LiveOk b (moveInit c mem) [] := fun d hd => by cases hd
      obtain ⟨l', -, j2, j3⟩ := moveLoop_live h0 this hl
      rw [j3 rfl, List.nil_append] at j2
      exact j2
    cases re with
    | raised e => injection h with _ h; cases h
    | unfinished => injection h with _ h; cases h
    | done =>
      simp only [moveFinish] at h
      split at h
      · injection h with h _
        subst h
        exact ⟨s1.dma, s1.live, h1, rfl, h3⟩
      · split at h
        · injection h with _ h; cases h
        · injection h with h _
          subst h
          exact ⟨s1.dma, [], h1, rfl, fun x hx => by cases hx⟩
  · exact absurd h moveLoop_not_done

end Hal

/-! ### The engine running while the program is written -/

theorem eff_setMem (w : World) (m : Nat → Word) (x : Blk) :
    x.eff { w with mem := m } = { x.eff w with mem := m } := by cases x <;> rfl

theorem foldl_setMem (l : List Blk) (w : World) (m : Nat → Word) :
    l.foldl Blk.eff { w with mem := m } = { l.foldl Blk.eff w with mem := m } := by
  induction l generalizing w with
  | nil => rfl
  | cons x l ih => rw [List.foldl_cons, List.foldl_cons, eff_setMem, ih]

theorem run_zero (b : Buf) (n : Nat) (w : World) : Dma.run b n 0 w = (w, 0) := by
  cases n with
  | zero => rfl
  | succ n => rw [Dma.run, if_pos rfl]

/-- `n` blocks of a program that is not finished. -/
theorem run_part {b : Buf} (hb : b.Ok) {d : DmaSt} {l : List Blk} (hh : Holds b d l) (n : Nat) :
    ∀ (i : Nat) (w : World), i + n ≤ l.length → w.mem = d.mem →
      Dma.run b n (b.base + 32 * i) w =
        (((l.drop i).take n).foldl Blk.eff w, b.base + 32 * (i + n)) := by
  have hsz : 32 * l.length ≤ b.size := by rw [← hh.1]; exact hh.2.1
  induction n with
  | zero => intro i w _ _; rfl
  | succ n ih =>
    intro i w hi hw
    have hil : i < l.length := by omega
    have hcb : ¬ (b.base + 32 * i = 0) := by have := hb.pos; omega
    have hblk := hh.2.2 i hil
    rw [← hw] at hblk
    have hex := Dma.exec_block b i _ _ w (by omega) hblk
    rw [Dma.run, if_neg hcb]
    simp only [hex]
    rw [List.drop_eq_getElem_cons hil, List.take_succ_cons, List.foldl_cons]
    rw [show b.base + 32 * i + 32 = b.base + 32 * (i + 1) by omega,
      ih (i + 1) _ (by omega) (by rw [eff_mem, hw]), show i + 1 + n = i + (n + 1) by omega]

/-- The rest of a finalized program. -/
theorem run_rest {b : Buf} (hb : b.Ok) {s : DmaSt} {l : List Blk} (hh : Holds b s l) (n : Nat) :
    ∀ (i : Nat) (w : World), i < l.length → l.length ≤ i + n →
      w.mem = (DmaGpio.finalize s).mem →
      Dma.run b n (b.base + 32 * i) w = ((l.drop i).foldl Blk.eff w, 0) := by
  have hsz : 32 * l.length ≤ b.size := by rw [← hh.1]; exact hh.2.1
  induction n with
  | zero => intro i w h1 h2; omega
  | succ n ih =>
    intro i w hi hn hw
    have hcb : ¬ (b.base + 32 * i = 0) := by have := hb.pos; omega
    have hblk := finalize_ok hh i hi
    rw [← hw] at hblk
    have hex := Dma.exec_block b i _ _ w (by omega) hblk
    rw [Dma.run, if_neg hcb]
    simp only [hex]
    rw [List.drop_eq_getElem_cons hi, List.foldl_cons]
    by_cases hlast : i + 1 = l.length
    · rw [if_pos hlast, hlast, List.drop_length, run_zero]
      rfl
    · rw [if_neg hlast]
      have := ih (i + 1) (l[i].eff w) (by omega) (by omega) (by rw [eff_mem, hw])
      rw [show b.base + 32 * i + 32 = b.base + 32 * (i + 1) by omega]
      exact this

/-- The engine plays the whole program when it stays behind the writer. -/
theorem runLive_ok {b : Buf} (hb : b.Ok) {d : DmaSt} {l : List Blk} (hh : Holds b d l)
    (ds : List DmaSt) :
    ∀ (ns : List Nat) (i : Nat) (w : World),
      (∀ x ∈ ds, ∃ l1 l2, Holds b x l1 ∧ l = l1 ++ l2) → i < l.length →
      Behind l.length (ds ++ [DmaGpio.finalize d]) ns i →
      ∃ m, Dma.runLive b (ds ++ [DmaGpio.finalize d]) ns (b.base + 32 * i) w =
        ({ (l.drop i).foldl Blk.eff w with mem := m }, 0) := by
  induction ds with
  | nil =>
    intro ns i w _ hi hbh
    match ns, hbh with
    | [n], hbh =>
      simp only [List.nil_append, Behind] at hbh
      have := run_rest hb hh n i { w with mem := (DmaGpio.finalize d).mem } hi (by omega) rfl
      refine ⟨(DmaGpio.finalize d).mem, ?_⟩
      simp only [List.nil_append, Dma.runLive, this, foldl_setMem]
  | cons x ds ih =>
    intro ns i w hds hi hbh
    match ns, hbh with
    | [], hbh => simp [Behind] at hbh
    | [n], hbh =>
      exfalso
      cases ds <;> simp [Behind] at hbh
    | n :: n' :: ns, hbh =>
      have hbh' : 32 * (i + n) < x.addr ∧
          Behind l.length (ds ++ [DmaGpio.finalize d]) (n' :: ns) (i + n) := by
        cases ds <;> simpa [Behind] using hbh
      obtain ⟨h1, h2⟩ := hbh'
      obtain ⟨l1, l2, hx, hl⟩ := hds x (List.mem_cons_self ..)
      have hlen : i + n < l1.length := by rw [hx.1] at h1; omega
      have hlen' : l1.length ≤ l.length := by rw [hl]; simp
      have hr := run_part hb hx n i { w with mem := x.mem } (by omega) rfl
      have htk : (l1.drop i).take n = (l.drop i).take n := by
        rw [hl, List.drop_append_of_le_length (by omega), List.take_append_of_le_length]
        rw [List.length_drop]; omega
      rw [htk, foldl_setMem] at hr
      obtain ⟨m, hm⟩ := ih (n' :: ns) (i + n)
        { ((l.drop i).take n).foldl Blk.eff w with mem := x.mem }
        (fun y hy => hds y (List.mem_cons_of_mem _ hy)) (by omega) h2
      refine ⟨m, ?_⟩
      rw [List.cons_append, Dma.runLive]
      simp only [hr, hm]
      have hd : (l.drop i).take n ++ l.drop (i + n) = l.drop i := by
        rw [← List.drop_drop, List.take_append_drop]
      rw [foldl_setMem, ← List.foldl_append, hd]

/-! ### The order of accesses -/

theorem respects_mono {env : MoveEnv} (hp : Progress env) {tr : List HalOp} {op : HalOp}
    (h1 : op ≠ .runStream) (h2 : op ≠ .run) {q : Int}
    (h : ∀ q', env.cb tr = some q' → q ≤ q') :
    ∀ q', env.cb (op :: tr) = some q' → q ≤ q' := by
  intro q' hq'
  cases hc : env.cb tr with
  | none => rw [hp.stopped tr op h1 h2 hc] at hq'; cases hq'
  | some q0 => exact le_trans (h q0 hc) (hp.advance tr op q0 q' h1 h2 hc hq')

/-- What holds at each point of the loop. -/
structure MoveInv (env : MoveEnv) (b : Buf) (mem : Nat → Word) (s : MoveSt) : Prop where
  resp : Respects env b s.trace
  ran : s.isRan = true ↔ .runStream ∈ s.trace
  ranCur : s.isRan = true → s.cur = none
  noRun : .run ∉ s.trace
  stopped : s.isRan = false → s.cur = none → env.cb s.trace = none
  lower : ∀ q, s.cur = some q → ∀ q', env.cb s.trace = some q' → q ≤ q'
  aligned : 32 ∣ s.dma.addr
  size : s.dma.addr ≤ b.size
  keep : ∀ i, s.dma.addr / 4 ≤ i → s.dma.mem i = mem i
  written : ∀ i, i < s.dma.addr / 4 → ∃ a l, .write a l ∈ s.trace ∧ a ≤ 4 * i ∧ 4 * i + 4 ≤ a + l

theorem moveInit_inv (env : MoveEnv) (hp : Progress env) (c : Cfg) (b : Buf) (mem : Nat → Word) :
    MoveInv env b mem (Hal.moveInit c mem) where
  resp := trivial
  ran := by simp [Hal.moveInit]
  ranCur := by simp [Hal.moveInit]
  noRun := by simp [Hal.moveInit]
  stopped := by simp [Hal.moveInit]
  lower := by
    intro q hq q' hq'
    simp only [Hal.moveInit, Option.some.injEq] at hq
    rw [← hq]
    exact hp.nonneg _ _ hq'
  aligned := by simp [Hal.moveInit]
  size := by simp [Hal.moveInit]
  keep := by intros; rfl
  written := by intro i hi; simp [Hal.moveInit] at hi

/-- Waiting keeps the invariant and ends with the engine stopped or far enough ahead. -/
theorem moveWait_inv {env : MoveEnv} {b : Buf} {mem : Nat → Word} {n : Nat}
    {s s' : MoveSt} (hi : MoveInv env b mem s) (h : Hal.moveWait env n s = some s') :
    MoveInv env b mem s' ∧
      (s'.cur = none ∨ ∃ q, s'.cur = some q ∧ (s'.dma.addr : Int) + 128 < q) := by
  have c128 : (4 * cbSize : Nat) = 128 := rfl
  have poll : ∀ (s : MoveSt), s.isRan = false → MoveInv env b mem s →
      MoveInv env b mem { s with trace := .poll :: s.trace, cur := env.cb (.poll :: s.trace) } := by
    intro s hr hi
    exact {
      resp := hi.resp
      ran := by simpa using hi.ran
      ranCur := fun h => by simp [hr] at h
      noRun := by simpa using hi.noRun
      stopped := fun _ h => h
      lower := fun q hq q' hq' => by
        have : q = q' := by
          have := hq.symm.trans hq'
          exact Option.some.inj this
        omega
      aligned := hi.aligned
      size := hi.size
      keep := hi.keep
      written := fun i h => by
        obtain ⟨a, l, h1, h2⟩ := hi.written i h
        exact ⟨a, l, List.mem_cons_of_mem _ h1, h2⟩ }
  induction n generalizing s with
  | zero =>
    unfold Hal.moveWait at h
    split at h
    · rename_i hc
      injection h with h; subst h; exact ⟨hi, Or.inl hc⟩
    · rename_i q hc
      split at h
      · cases h
      · rename_i hlt
        injection h with h; subst h
        exact ⟨hi, Or.inr ⟨q, hc, by simp only [cbSize] at hlt; omega⟩⟩
  | succ n ih =>
    unfold Hal.moveWait at h
    split at h
    · rename_i hc
      injection h with h; subst h; exact ⟨hi, Or.inl hc⟩
    · rename_i q hc
      have hr : s.isRan = false := by
        by_contra hr
        have := hi.ranCur (by simpa using hr)
        rw [hc] at this; cases this
      split at h
      · dsimp only at h
        have hpoll := poll s hr hi
        split at h
        · rename_i hn
          injection h with h; subst h
          exact ⟨⟨hpoll.resp, hpoll.ran, hpoll.ranCur, hpoll.noRun, hpoll.stopped, hpoll.lower,
            hpoll.aligned, hpoll.size, hpoll.keep, hpoll.written⟩, Or.inl hn⟩
        · exact ih hpoll h
      · rename_i hlt
        injection h with h; subst h
        exact ⟨hi, Or.inr ⟨q, hc, by simp only [cbSize] at hlt; omega⟩⟩

theorem packInto_frame {s : DmaSt} {m' : Nat → Word} {ws : List Nat} {n : Nat}
    (hn : ws.length = n) (h : packInto s.mem s.addr ws = .ok m') (i : Nat)
    (hi : (s.addr + 4 * n) / 4 ≤ i) : m' i = s.mem i :=
  (packInto_ok h).2.2 i (Or.inr (by rw [hn]; omega))

/-- A successful `add_*` call of `len` bytes. -/
def Added (b : Buf) (len : Nat) (s d : DmaSt) : Prop :=
  d.addr = s.addr + len ∧ d.addr ≤ b.size ∧ ∀ i, d.addr / 4 ≤ i → d.mem i = s.mem i

theorem addSetClear_added {b : Buf} {s d : DmaSt} {x y : Nat}
    (h : DmaGpio.addSetClear b x y s = .ok d) : Added b 32 s d := by
  unfold DmaGpio.addSetClear at h
  by_cases hsz : s.addr + cbSize > b.size
  · simp only [hsz, if_true] at h; cases h
  · simp only [hsz, if_false] at h
    generalize hp : packInto _ _ _ = r at h
    cases r with
    | error e => cases h
    | ok m' =>
      injection h with h
      subst h
      exact ⟨rfl, by simpa using hsz, fun i hi => packInto_frame (n := 8) rfl hp i hi⟩

theorem addDelay_added {b : Buf} {s d : DmaSt} {x : Nat}
    (h : DmaGpio.addDelay b x s = .ok d) : Added b 32 s d := by
  unfold DmaGpio.addDelay at h
  by_cases hsz : s.addr + cbSize > b.size
  · simp only [hsz, if_true] at h; cases h
  · simp only [hsz, if_false] at h
    generalize hp : packInto _ _ _ = r at h
    cases r with
    | error e => cases h
    | ok m' =>
      injection h with h
      subst h
      exact ⟨rfl, by simpa using hsz, fun i hi => packInto_frame (n := 8) rfl hp i hi⟩

theorem addPulse_added {b : Buf} {s d : DmaSt} {x u : Nat}
    (h : DmaGpio.addPulse b x u s = .ok d) : Added b 96 s d := by
  unfold DmaGpio.addPulse at h
  by_cases hsz : s.addr + 3 * cbSize > b.size
  · simp only [hsz, if_true] at h; cases h
  · simp only [hsz, if_false] at h
    generalize hp : packInto _ _ _ = r at h
    cases r with
    | error e => cases h
    | ok m' =>
      injection h with h
      subst h
      exact ⟨rfl, by simpa using hsz, fun i hi => packInto_frame (n := 24) rfl hp i hi⟩

/-- Room for `r` more bytes before the running control block. -/
def Room (r : Nat) (s : MoveSt) : Prop :=
  s.cur = none ∨ ∃ q, s.cur = some q ∧ (s.dma.addr : Int) + r < q

theorem upd_inv {env : MoveEnv} (hp : Progress env) {b : Buf} {mem : Nat → Word} {s : MoveSt}
    {d : DmaSt} {len r : Nat} (hi : MoveInv env b mem s) (hd : Added b len s.dma d)
    (hl : 32 ∣ len) (hr : Room (r + len) s) :
    MoveInv env b mem (Hal.upd s d) ∧ Room r (Hal.upd s d) := by
  obtain ⟨d1, d2, d3⟩ := hd
  have hlen : d.addr - s.dma.addr = len := by omega
  have ha := hi.aligned
  refine ⟨?_, ?_⟩
  · exact {
      resp := by
        refine ⟨by omega, ?_, hi.resp⟩
        intro hns q hq
        have hran : s.isRan = false := by
          by_contra hc
          exact hns (hi.ran.mp (by simpa using hc))
        rcases hr with hc | ⟨q0, hq0, hlt⟩
        · rw [hi.stopped hran hc] at hq; cases hq
        · have := hi.lower q0 hq0 q hq
          rw [hlen]
          push_cast at hlt
          omega
      ran := by
        have := hi.ran
        simp only [Hal.upd, List.mem_cons, reduceCtorEq, false_or]
        exact this
      ranCur := hi.ranCur
      noRun := by
        simp only [Hal.upd, List.mem_cons, reduceCtorEq, false_or]
        exact hi.noRun
      stopped := fun h1 h2 => hp.stopped _ _ (by simp) (by simp) (hi.stopped h1 h2)
      lower := fun q hq => respects_mono hp (by simp) (by simp) (hi.lower q hq)
      aligned := by
        show 32 ∣ d.addr
        rw [d1]; exact Nat.dvd_add ha hl
      size := d2
      keep := fun i h => by
        show d.mem i = mem i
        change d.addr / 4 ≤ i at h
        rw [d3 i h]
        exact hi.keep i (by omega)
      written := fun i h => by
        change i < d.addr / 4 at h
        by_cases hlt : i < s.dma.addr / 4
        · obtain ⟨a, l, h1, h2⟩ := hi.written i hlt
          exact ⟨a, l, List.mem_cons_of_mem _ h1, h2⟩
        · refine ⟨s.dma.addr, d.addr - s.dma.addr, List.mem_cons_self .., ?_, ?_⟩
          · omega
          · obtain ⟨k, hk⟩ := ha
            omega }
  · rcases hr with hc | ⟨q0, hq0, hlt⟩
    · exact Or.inl hc
    · refine Or.inr ⟨q0, hq0, ?_⟩
      show (d.addr : Int) + r < q0
      rw [d1]
      push_cast at hlt ⊢
      omega

theorem moveBody_inv {env : MoveEnv} (hp : Progress env) {c : Cfg} {p : Pins} {b : Buf}
    {mem : Nat → Word} {ev : Event F} {s s' : MoveSt} (hi : MoveInv env b mem s)
    (hr : Room 128 s) (h : Hal.moveBody c p b env ev s = .ok s') : MoveInv env b mem s' := by
  rcases Hal.moveBody_cases h with ⟨x, y, d, hd, rfl⟩ | ⟨k, s1, hs1, m, d, hd, hcase⟩
  · exact (upd_inv hp (r := 96) hi (addSetClear_added hd) (by decide) hr).1
  · have hi0 : MoveInv env b mem { s with k := k } :=
      ⟨hi.resp, hi.ran, hi.ranCur, hi.noRun, hi.stopped, hi.lower, hi.aligned, hi.size, hi.keep,
        hi.written⟩
    have h1 : MoveInv env b mem s1 ∧ Room 96 s1 ∧ s1.isRan = s.isRan ∧ s1.cur = s.cur := by
      rcases hs1 with ⟨u, d1, hd1, rfl⟩ | rfl
      · obtain ⟨a1, a2⟩ := upd_inv hp (r := 96) hi0 (addDelay_added (s := s.dma) hd1) (by decide) hr
        exact ⟨a1, a2, rfl, rfl⟩
      · refine ⟨hi0, ?_, rfl, rfl⟩
        rcases hr with hc | ⟨q, hq, hlt⟩
        · exact Or.inl hc
        · exact Or.inr ⟨q, hq, by push_cast at hlt ⊢; exact lt_trans (by simp) hlt⟩
    obtain ⟨i1, r1, e1, e2⟩ := h1
    have h2 := (upd_inv hp (r := 0) i1 (addPulse_added hd) (by decide) (by simpa using r1)).1
    rcases hcase with rfl | rfl | ⟨hran, hcur, rfl⟩
    · exact ⟨h2.resp, h2.ran, h2.ranCur, h2.noRun, h2.stopped, h2.lower, h2.aligned, h2.size,
        h2.keep, h2.written⟩
    · exact ⟨h2.resp, h2.ran, h2.ranCur, h2.noRun, h2.stopped, h2.lower, h2.aligned, h2.size,
        h2.keep, h2.written⟩
    · have hr2 : (Hal.upd s1 d).isRan = false := by
        show s1.isRan = false
        rw [e1]; exact hran
      have hc2 : (Hal.upd s1 d).cur = none := by
        show s1.cur = none
        rw [e2]; exact hcur
      exact {
        resp := ⟨h2.stopped hr2 hc2, h2.resp⟩
        ran := by simp
        ranCur := fun _ => hc2
        noRun := by
          simp only [List.mem_cons, reduceCtorEq, false_or]
          exact h2.noRun
        stopped := fun h => by simp at h
        lower := fun q hq => by
          change (Hal.upd s1 d).cur = some q at hq
          rw [hc2] at hq; cases hq
        aligned := h2.aligned
        size := h2.size
        keep := h2.keep
        written := fun i hlt => by
          obtain ⟨a, l, h1, h2⟩ := h2.written i hlt
          exact ⟨a, l, List.mem_cons_of_mem _ h1, h2⟩ }

theorem moveLoop_inv {env : MoveEnv} (hp : Progress env) {c : Cfg} {p : Pins} {b : Buf}
    {fuel : Nat} {mem : Nat → Word} {evs : List (Event F)} {s s' : MoveSt} {e : MoveEnd}
    (hi : MoveInv env b mem s) (h : Hal.moveLoop c p b env fuel evs s = (s', e)) :
    MoveInv env b mem s' := by
  induction evs generalizing s with
  | nil => injection h with h1 h2; subst h1; exact hi
  | cons ev evs ih =>
    unfold Hal.moveLoop at h
    split at h
    · injection h with h1 h2; subst h1; exact hi
    · rename_i s1 hw
      obtain ⟨hi1, hroom⟩ := moveWait_inv hi hw
      split at h
      · injection h with h1 h2; subst h1; exact hi1
      · rename_i s2 hb
        exact ih (moveBody_inv hp hi1 (by
          rcases hroom with h | ⟨q, h1, h2⟩
          · exact Or.inl h
          · exact Or.inr ⟨q, h1, by push_cast; exact h2⟩) hb) h

end PyCNC
