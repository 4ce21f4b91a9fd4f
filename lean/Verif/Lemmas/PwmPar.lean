import Verif.Lemmas.Pwm

/-!
# The PWM used by several threads; waveforms; whole calls
-/

namespace PyCNC

open Spec

namespace Pwm

/-! ### Waveforms -/

theorem iter_engine {b : Buf} (hs : 8192 ≤ b.size) {s : PwmSt} (hh : Headers b s.w.mem)
    (ha : s.active = true) {φ : Nat} (hφ : φ < 256) (hp : s.pos = b.base + 32 * φ) (k : Nat) :
    ((engine b)^[k] s).w.mem = s.w.mem ∧ ((engine b)^[k] s).active = true ∧
      ((engine b)^[k] s).pos = b.base + 32 * ((φ + k) % 256) := by
  induction k with
  | zero => exact ⟨rfl, ha, by rw [Function.iterate_zero, id, hp, Nat.add_zero, Nat.mod_eq_of_lt hφ]⟩
  | succ k ih =>
    obtain ⟨h1, h2, h3⟩ := ih
    rw [Function.iterate_succ_apply']
    have hi : (φ + k) % 256 < 256 := Nat.mod_lt _ (by omega)
    obtain ⟨e1, -, e3, e4, -⟩ := engine_eq hs (by rw [h1]; exact hh) h2 hi h3
    refine ⟨e1.trans h1, e3, ?_⟩
    rw [e4]
    congr 2
    omega

theorem wave {b : Buf} (hs : 8192 ≤ b.size) {s : PwmSt} (hh : Headers b s.w.mem)
    (ha : s.active = true) {φ : Nat} (hφ : φ < 256) (hp : s.pos = b.base + 32 * φ) {q n : Nat}
    (hn0 : 0 < n) (hn1 : n < 256) (hb : ∀ i < 256, DataBit s i q ↔ On n i) (k : Nat)
    (hk : 256 ≤ φ + k) :
    level ((engine b)^[k + 1] s) q = decide ((φ + k) % 256 < n) := by
  obtain ⟨k0, rfl⟩ : ∃ k0, k = (256 - φ) + k0 := ⟨k - (256 - φ), by omega⟩
  have e : φ + (256 - φ + k0) = 256 + k0 := by omega
  rw [e]
  clear hk e
  induction k0 with
  | zero =>
    rw [Nat.add_zero]
    obtain ⟨h1, h2, h3⟩ := iter_engine hs hh ha hφ hp (256 - φ)
    have e : (φ + (256 - φ)) % 256 = 0 := by omega
    rw [e] at h3
    obtain ⟨-, -, -, -, h4⟩ := engine_eq hs (by rw [h1]; exact hh) h2 (by omega) h3
    rw [Function.iterate_succ_apply']
    have hbit : DataBit ((engine b)^[256 - φ] s) 0 q := by
      unfold DataBit; rw [h1]
      exact (hb 0 (by omega)).mpr (Or.inl ⟨rfl, hn0, hn1⟩)
    rw [(h4 q).1 hbit]
    simp [hn0]
  | succ k0 ih =>
    obtain ⟨h1, h2, h3⟩ := iter_engine hs hh ha hφ hp (256 - φ + k0 + 1)
    have e : φ + (256 - φ + k0 + 1) = 256 + (k0 + 1) := by omega
    rw [e] at h3
    have hi : (256 + (k0 + 1)) % 256 < 256 := Nat.mod_lt _ (by omega)
    obtain ⟨-, -, -, -, h4⟩ := engine_eq hs (by rw [h1]; exact hh) h2 hi h3
    rw [← Nat.add_assoc, Function.iterate_succ_apply']
    have hbit : DataBit ((engine b)^[256 - φ + k0 + 1] s) ((256 + (k0 + 1)) % 256) q ↔
        On n ((256 + (k0 + 1)) % 256) := by
      unfold DataBit; rw [h1]
      exact hb _ hi
    by_cases hd : On n ((256 + (k0 + 1)) % 256)
    · rw [(h4 q).1 (hbit.mpr hd)]
      unfold On at hd
      rcases hd with ⟨h0, -, -⟩ | ⟨h0, h5⟩
      · rw [h0]; simp [hn0]
      · have : ¬ (256 + (k0 + 1)) % 256 = 0 := by omega
        have : ¬ (256 + (k0 + 1)) % 256 < n := by omega
        simp only [decide_eq_false this]
        simpa using by omega
    · rw [(h4 q).2 (fun h => hd (hbit.mp h)), ih]
      unfold On at hd
      have : (256 + k0) % 256 < n ↔ (256 + (k0 + 1)) % 256 < n := by omega
      simp only [this]

/-! ### Several threads -/

variable [PyRound]

theorem PcInv.congr {l : Nat → Bool} {s s' : PwmSt} {p : Nat} {o a : Option Nat} {pc : Pc}
    (h : PcInv l s p o a pc) (hs : Same s s' p) (hc : ¬ InSection pc) : PcInv l s' p o a pc := by
  obtain ⟨hb, hl, hv⟩ := id hs
  have hcl : Clean s p → Clean s' p := fun h =>
    ⟨fun i hi hbb => h.1 i hi ((hb i hi).mp hbb), by rw [hl]; exact h.2⟩
  have hne : ∀ n, 0 < n → n < 256 → PinOk l s' p (some n) → s'.clear ≠ [] := by
    intro n h0 h1 hp he
    have := hp.2.2.1
    rw [he, lookup_nil, regAddr, if_neg (by omega), if_neg (by omega)] at this
    cases this
  cases pc with
  | idle => exact h
  | remStart => exact ⟨h.1, h.2.1, h.2.2.congr hs⟩
  | remRead1 =>
    obtain ⟨h1, h2, n, h3, h4, h5⟩ := h
    exact ⟨h1, h2, n, h3, h4.congr hs, h5⟩
  | remWrite1 => exact (hc trivial).elim
  | remRead2 =>
    exact ⟨h.1, h.2.1, h.2.2.1, fun i hi h0 hbb => h.2.2.2 i hi h0 ((hb i hi).mp hbb)⟩
  | remWrite2 => exact (hc trivial).elim
  | remDel => exact ⟨h.1, h.2.1, h.2.2.1, fun i hi hbb => h.2.2.2 i hi ((hb i hi).mp hbb)⟩
  | remClr => exact ⟨h.1, h.2.1, h.2.2.1, hcl h.2.2.2⟩
  | remCheck => exact ⟨h.1, h.2.1, h.2.2.congr hs⟩
  | remStop => exact (hc trivial).elim
  | addGpio => exact ⟨h.1, h.2.1, h.2.2.1, hcl h.2.2.2⟩
  | addFull => exact ⟨h.1, h.2.1, hcl h.2.2.1, hv.trans h.2.2.2⟩
  | addRead1 => exact ⟨h.1, h.2.1, h.2.2.1, hcl h.2.2.2⟩
  | addWrite1 => exact (hc trivial).elim
  | addRead2 =>
    exact ⟨h.1, h.2.1, h.2.2.1, by rw [hl]; exact h.2.2.2.1,
      fun i hi => (hb i hi).trans (h.2.2.2.2 i hi)⟩
  | addWrite2 => exact (hc trivial).elim
  | addReg =>
    exact ⟨h.1, h.2.1, h.2.2.1, by rw [hl]; exact h.2.2.2.1,
      fun i hi => (hb i hi).trans (h.2.2.2.2 i hi)⟩
  | addCheck =>
    obtain ⟨h1, n, h2, h3, h4, h5⟩ := h
    exact ⟨h1, n, h2, h3, h4.congr hs, hne n h3.1 h3.2 (h4.congr hs)⟩
  | addRun =>
    obtain ⟨h1, n, h2, h3, h4, h5⟩ := h
    exact ⟨h1, n, h2, h3, h4.congr hs, hne n h3.1 h3.2 (h4.congr hs)⟩

/-- No thread is working on the pin. -/
def Free (cs : Threads) (q : Nat) : Prop := ∀ t k pc, cs t = some (k, pc) → k.pin ≠ (q : Int)

/-- The invariant for several threads. -/
structure InvP (b : Buf) (l : Nat → Bool) (h : List PwmCall) (cs : Threads) (s : PwmSt) :
    Prop where
  headers : Headers b s.w.mem
  free : ∀ q, Free cs q → PinOk l s q (want h q)
  cur : ∀ t k pc, cs t = some (k, pc) → ∃ p : Nat, k.pin = p ∧ p < 32 ∧
    (∀ n, argOf k = some n → n ≤ 256) ∧ PcInv l s p (want h p) (argOf k) pc
  distinct : ∀ t u k k' pc pc', cs t = some (k, pc) → cs u = some (k', pc') → t ≠ u →
    k.pin ≠ k'.pin
  run : ∀ q, Free cs q → ∀ n, want h q = some n → 0 < n → n < 256 → s.active = true
  stop : (∀ t k pc, cs t = some (k, pc) → stopping pc = false) → s.clear = [] → s.active = false
  posn : s.active = true → ∃ i < 256, s.pos = b.base + 32 * i

theorem upd_same (cs : Threads) (t : Nat) (x : Option (PwmCall × Pc)) :
    Function.update cs t x t = x := Function.update_self ..

theorem upd_other (cs : Threads) {t u : Nat} (x : Option (PwmCall × Pc)) (h : u ≠ t) :
    Function.update cs t x u = cs u := Function.update_of_ne h ..

/-- What a step of thread `t` does to the rest of the invariant. -/
theorem step_rest {b : Buf} {l : Nat → Bool} {h : List PwmCall} {cs : Threads} {s : PwmSt}
    (ih : InvP b l h cs s) {t : Nat} {c : PwmCall} {pc : Pc} (ht : cs t = some (c, pc))
    (hm : Locked cs t) {p : Nat} (hp : c.pin = p) (hp32 : p < 32)
    (hn : ∀ n, argOf c = some n → n ≤ 256) (hi : PcInv l s p (want h p) (argOf c) pc) :
    Headers b (step b pc s).1.w.mem ∧
    (∀ q, Free cs q → PinOk l (step b pc s).1 q (want h q)) ∧
    (∀ u k pc', u ≠ t → cs u = some (k, pc') → ∃ p : Nat, k.pin = p ∧ p < 32 ∧
      (∀ n, argOf k = some n → n ≤ 256) ∧
      PcInv l (step b pc s).1 p (want h p) (argOf k) pc') ∧
    (∀ q, Free cs q → ∀ n, want h q = some n → 0 < n → n < 256 →
      (step b pc s).1.active = true) ∧
    ((step b pc s).1.active = true → ∃ i < 256, (step b pc s).1.pos = b.base + 32 * i) := by
  have st : StepOk b l s p (want h p) (argOf c) (step b pc s) := step_ok hp32 hn hi
  have hfp : ∀ q, Free cs q → q ≠ p := by
    intro q hq hqp
    exact hq t c pc ht (by rw [hp, hqp])
  refine ⟨st.headers ih.headers, fun q hq => (ih.free q hq).congr (st.others q (hfp q hq)), ?_, ?_,
    ?_⟩
  · intro u k pc' hu hk
    obtain ⟨p', hp', hp32', hn', hi'⟩ := ih.cur u k pc' hk
    refine ⟨p', hp', hp32', hn', hi'.congr (st.others p' ?_) (hm u k pc' hu hk)⟩
    intro he
    exact ih.distinct u t k c pc' pc hk ht hu (by rw [hp, hp', he])
  · intro q hq n hw h0 h1
    have ha := ih.run q hq n hw h0 h1
    rcases step_active (b := b) hi with h | h | h
    · rw [h.1]; exact ha
    · exfalso
      have hpo := ih.free q hq
      rw [hw] at hpo
      have := hpo.2.2.1
      rw [h.2.1, lookup_nil, regAddr, if_neg (by omega), if_neg (by omega)] at this
      cases this
    · exact h.1
  · intro ha
    rcases step_active (b := b) hi with h | h | h
    · rw [h.1] at ha; rw [h.2]; exact ih.posn ha
    · rw [h.1] at ha; cases ha
    · exact ⟨0, by omega, by rw [h.2]; rfl⟩

theorem inv_of_par {b : Buf} (hb : BufOk b) (hs : 8192 ≤ b.size) {w : World} {s₀ : PwmSt}
    (h0 : init b w = .ok s₀) {h : List PwmCall} {cs : Threads} {s : PwmSt}
    (hu : PwmPar Locked b s₀ h cs s) : InvP b w.gpio.latch h cs s := by
  induction hu with
  | init =>
    obtain ⟨h1, h2, h3, h4, h5⟩ := init_ok hb h0
    exact ⟨h1, fun q _ => ⟨fun i hi => h2 i hi q, by rw [h3]; rfl, by rw [level, h5]⟩,
      fun t k pc hk => (by cases hk), fun t u k k' pc pc' hk => (by cases hk),
      fun q _ n hn => (by cases hn), fun _ _ => h4, fun ha => (by rw [h4] at ha; cases ha)⟩
  | @start h cs s c pc t hu ht hp hc ih =>
    obtain ⟨p, hpp, hp32, hn, rfl⟩ := start_ok hc
    have hsub : ∀ q, Free (Function.update cs t (some (c, .remStart p (argOf c)))) q →
        Free cs q := by
      intro q hq u k pc' hk
      by_cases hut : u = t
      · subst hut; rw [ht] at hk; cases hk
      · exact hq u k pc' (by rw [upd_other _ _ hut]; exact hk)
    have hfree : Free cs p := by
      intro u k pc' hk he
      exact hp u k pc' hk (by rw [hpp, he])
    refine ⟨ih.headers, fun q hq => ih.free q (hsub q hq), ?_, ?_, fun q hq => ih.run q (hsub q hq),
      ?_, ih.posn⟩
    · intro u k pc' hk
      by_cases hut : u = t
      · subst hut
        rw [upd_same] at hk
        cases hk
        exact ⟨p, hpp, hp32, hn, rfl, rfl, ih.free p hfree⟩
      · rw [upd_other _ _ hut] at hk
        exact ih.cur u k pc' hk
    · intro u v k k' pc' pc'' hk hk' huv
      by_cases hut : u = t
      · subst hut
        rw [upd_same] at hk
        rw [upd_other _ _ (Ne.symm huv)] at hk'
        cases hk
        exact (hp v k' pc'' hk').symm
      · rw [upd_other _ _ hut] at hk
        by_cases hvt : v = t
        · subst hvt
          rw [upd_same] at hk'
          cases hk'
          exact hp u k pc' hk
        · rw [upd_other _ _ hvt] at hk'
          exact ih.distinct u v k k' pc' pc'' hk hk' huv
    · intro hst
      refine ih.stop fun u k pc' hk => ?_
      by_cases hut : u = t
      · subst hut; rw [ht] at hk; cases hk
      · exact hst u k pc' (by rw [upd_other _ _ hut]; exact hk)
  | @step h cs s c pc t hu ht hm hne ih =>
    obtain ⟨p, hp, hp32, hn, hi⟩ := ih.cur t c pc ht
    obtain ⟨r1, r2, r3, r4, r5⟩ := step_rest ih ht hm hp hp32 hn hi
    have st : StepOk b w.gpio.latch s p (want h p) (argOf c) (Pwm.step b pc s) := step_ok hp32 hn hi
    have hsub : ∀ q, Free (Function.update cs t (some (c, (Pwm.step b pc s).2))) q →
        Free cs q := by
      intro q hq u k pc' hk
      by_cases hut : u = t
      · subst hut
        rw [ht] at hk; cases hk
        exact hq u c _ (upd_same _ _ _)
      · exact hq u k pc' (by rw [upd_other _ _ hut]; exact hk)
    refine ⟨r1, fun q hq => r2 q (hsub q hq), ?_, ?_, fun q hq => r4 q (hsub q hq), ?_, r5⟩
    · intro u k pc' hk
      by_cases hut : u = t
      · subst hut
        rw [upd_same] at hk
        cases hk
        exact ⟨p, hp, hp32, hn, st.next hne⟩
      · rw [upd_other _ _ hut] at hk
        exact r3 u k pc' hut hk
    · intro u v k k' pc' pc'' hk hk' huv
      by_cases hut : u = t
      · subst hut
        rw [upd_same] at hk
        rw [upd_other _ _ (Ne.symm huv)] at hk'
        cases hk
        exact ih.distinct u v c k' pc pc'' ht hk' huv
      · rw [upd_other _ _ hut] at hk
        by_cases hvt : v = t
        · subst hvt
          rw [upd_same] at hk'
          cases hk'
          exact ih.distinct u v k c pc' pc hk ht huv
        · rw [upd_other _ _ hvt] at hk'
          exact ih.distinct u v k k' pc' pc'' hk hk' huv
    · intro hst hcl
      refine step_stopped hi (fun hpc hc => ih.stop (fun u k pc' hk => ?_) hc)
        (hst t c _ (upd_same _ _ _)) hcl
      by_cases hut : u = t
      · subst hut
        rw [ht] at hk; cases hk
        exact hpc
      · exact hst u k pc' (by rw [upd_other _ _ hut]; exact hk)
  | @finish h cs s c pc t hu ht hm hne ih =>
    obtain ⟨p, hp, hp32, hn, hi⟩ := ih.cur t c pc ht
    obtain ⟨r1, r2, r3, r4, r5⟩ := step_rest ih ht hm hp hp32 hn hi
    have st : StepOk b w.gpio.latch s p (want h p) (argOf c) (Pwm.step b pc s) := step_ok hp32 hn hi
    have hother : ∀ q : Nat, q ≠ p → c.pin ≠ q := by
      intro q hqp h'
      rw [hp] at h'
      omega
    have hsub : ∀ q, q ≠ p → Free (Function.update cs t none) q → Free cs q := by
      intro q hqp hq u k pc' hk
      by_cases hut : u = t
      · subst hut
        rw [ht] at hk; cases hk
        exact hother q hqp
      · exact hq u k pc' (by rw [upd_other _ _ hut]; exact hk)
    refine ⟨r1, fun q hq => ?_, ?_, ?_, ?_, ?_, r5⟩
    · by_cases hqp : q = p
      · subst hqp
        rw [want_same hp]
        exact st.done hne
      · rw [want_other (hother q hqp)]
        exact r2 q (hsub q hqp hq)
    · intro u k pc' hk
      by_cases hut : u = t
      · subst hut
        rw [upd_same] at hk
        cases hk
      · rw [upd_other _ _ hut] at hk
        obtain ⟨p', h1, h2, h3, h4⟩ := r3 u k pc' hut hk
        refine ⟨p', h1, h2, h3, ?_⟩
        rw [want_other]
        · exact h4
        · refine hother p' ?_
          intro he
          exact ih.distinct u t k c pc' pc hk ht hut (by rw [hp, h1, he])
    · intro u v k k' pc' pc'' hk hk' huv
      have hut : u ≠ t := by
        rintro rfl
        rw [upd_same] at hk; cases hk
      have hvt : v ≠ t := by
        rintro rfl
        rw [upd_same] at hk'; cases hk'
      rw [upd_other _ _ hut] at hk
      rw [upd_other _ _ hvt] at hk'
      exact ih.distinct u v k k' pc' pc'' hk hk' huv
    · intro q hq n hw h0 h1
      by_cases hqp : q = p
      · subst hqp
        rw [want_same hp] at hw
        exact step_running hi hne hw h0 h1
      · rw [want_other (hother q hqp)] at hw
        exact r4 q (hsub q hqp hq) n hw h0 h1
    · intro hst hcl
      refine step_stopped hi (fun hpc hc => ih.stop (fun u k pc' hk => ?_) hc)
        (by rw [hne]; rfl) hcl
      by_cases hut : u = t
      · subst hut
        rw [ht] at hk; cases hk
        exact hpc
      · exact hst u k pc' (by rw [upd_other _ _ hut]; exact hk)
  | @engine h cs s hu ih =>
    have hq := engine_quiet hs ih.headers ih.posn
    refine ⟨by rw [hq.1]; exact ih.headers, fun q h' => (ih.free q h').quiet hq,
      fun t k pc hk => ?_, ih.distinct,
      fun q h' n hn h0 h1 => by rw [hq.2.2.1]; exact ih.run q h' n hn h0 h1,
      fun hst hc => ?_, fun ha => ?_⟩
    · obtain ⟨p, hp, hp32, hn, hi⟩ := ih.cur t k pc hk
      exact ⟨p, hp, hp32, hn, hi.quiet hq⟩
    · rw [hq.2.1] at hc
      rw [hq.2.2.1]
      exact ih.stop hst hc
    · rw [hq.2.2.1] at ha
      obtain ⟨i, hi, hp⟩ := ih.posn ha
      obtain ⟨-, -, -, h4, -⟩ := engine_eq hs ih.headers ha hi hp
      exact ⟨(i + 1) % 256, Nat.mod_lt _ (by omega), h4⟩

/-! ### Whole calls -/

/-- An upper bound of the number of steps left. -/
def rank : Pc → Nat
  | .idle => 0
  | .remStart .. => 18
  | .remRead1 .. => 17
  | .remWrite1 .. => 16
  | .remRead2 .. => 15
  | .remWrite2 .. => 14
  | .remDel .. => 13
  | .remClr .. => 12
  | .remCheck .. => 11
  | .remStop .. => 10
  | .addGpio .. => 9
  | .addFull .. => 8
  | .addRead1 .. => 7
  | .addWrite1 .. => 6
  | .addRead2 .. => 5
  | .addWrite2 .. => 4
  | .addReg .. => 3
  | .addCheck .. => 2
  | .addRun .. => 1

theorem rank_after (p : Nat) (a : Option Nat) : rank (afterRemove p a) < 10 := by
  unfold afterRemove
  split
  · simp [rank]
  · split <;> simp [rank]

theorem rank_step (b : Buf) (pc : Pc) (s : PwmSt) (h : pc ≠ .idle) :
    rank (step b pc s).2 < rank pc := by
  cases pc with
  | idle => exact absurd rfl h
  | remStart => simp only [step]; split <;> simp [rank]
  | remCheck p a =>
    simp only [step]
    split
    · simp [rank]
    · exact Nat.lt_trans (rank_after p a) (by simp [rank])
  | remStop p a => exact rank_after p a
  | addGpio => simp only [step]; split <;> simp [rank]
  | addCheck => simp only [step]; split <;> simp [rank]
  | _ => simp [step, rank]

theorem go_use {b : Buf} {s₀ : PwmSt} {h : List PwmCall} {c : PwmCall} :
    ∀ (n : Nat) (pc : Pc) (s : PwmSt), rank pc ≤ n → pc ≠ .idle → PwmUse b s₀ h (some c) s pc →
      PwmUse b s₀ (c :: h) none (finish.go b n pc s) .idle
  | 0, pc, s, hr, hne, hu => by
    exfalso
    have := rank_step b pc s hne
    omega
  | n + 1, pc, s, hr, hne, hu => by
    have hlt := rank_step b pc s hne
    rw [finish.go, if_neg hne]
    by_cases hd : (step b pc s).2 = .idle
    · have hf := PwmUse.finish hu hd
      rw [hd]
      cases n with
      | zero => exact hf
      | succ n => rw [finish.go, if_pos rfl]; exact hf
    · exact go_use n _ _ (by omega) hd (PwmUse.step hu hd)

theorem finish_use {b : Buf} {s₀ : PwmSt} {h : List PwmCall} {c : PwmCall} {s : PwmSt} {pc : Pc}
    (hu : PwmUse b s₀ h none s .idle) (hc : startCall c = .ok pc) :
    PwmUse b s₀ (c :: h) none (finish b pc s) .idle := by
  obtain ⟨p, -, -, -, rfl⟩ := start_ok hc
  exact go_use 20 _ _ (by simp only [rank]; omega) (by simp) (PwmUse.start hu hc)

theorem want_lt {b : Buf} (hb : BufOk b) (hs : 8192 ≤ b.size) {w : World} {s₀ : PwmSt}
    (h0 : init b w = .ok s₀) {h : List PwmCall} {c : Option PwmCall} {s : PwmSt} {pc : Pc}
    (hu : PwmUse b s₀ h c s pc) (q : Nat) (hq : 32 ≤ q) : slots h q = none := by
  induction hu with
  | init => rfl
  | start _ _ ih => exact ih
  | step _ _ ih => exact ih
  | @finish h s c pc hu _ ih =>
    obtain ⟨p, hp, hp32, -⟩ := (inv_of_use hb hs h0 hu).cur c rfl
    have hne : c.pin ≠ q := by rw [hp]; omega
    cases c with
    | add p' d =>
      have hne : p' ≠ q := hne
      simp only [slots, if_neg hne, ih]
    | remove p' =>
      have hne : p' ≠ q := hne
      simp only [slots, if_neg hne, ih]
  | engine _ ih => exact ih

/-- A whole call, from anywhere: what it does to its pin and to the others. -/
theorem go_ok {b : Buf} {l : Nat → Bool} {p : Nat} {o a : Option Nat} (hp : p < 32)
    (ha : ∀ n, a = some n → n ≤ 256) :
    ∀ (n : Nat) (pc : Pc) (s : PwmSt), rank pc ≤ n → PcInv l s p o a pc → Headers b s.w.mem →
      PinOk l (finish.go b n pc s) p (target o a) ∧ Headers b (finish.go b n pc s).w.mem ∧
      (∀ q, q ≠ p → Same s (finish.go b n pc s) q) ∧
      (∀ m, target o a = some m → 0 < m → m < 256 → (finish.go b n pc s).active = true) ∧
      ((s.active = true → ∃ i < 256, s.pos = b.base + 32 * i) →
        (finish.go b n pc s).active = true → ∃ i < 256, (finish.go b n pc s).pos = b.base + 32 * i)
  | 0, pc, s, hr, hi, _ => by
    have hne : pc ≠ .idle := by rintro rfl; exact hi
    have := rank_step b pc s hne
    omega
  | n + 1, pc, s, hr, hi, hh => by
    have hne : pc ≠ .idle := by rintro rfl; exact hi
    have hlt := rank_step b pc s hne
    rw [finish.go, if_neg hne]
    have st : StepOk b l s p o a (step b pc s) := step_ok hp ha hi
    have hpos : (s.active = true → ∃ i < 256, s.pos = b.base + 32 * i) →
        (step b pc s).1.active = true → ∃ i < 256, (step b pc s).1.pos = b.base + 32 * i := by
      intro h0 ha
      rcases step_active (b := b) hi with h | h | h
      · rw [h.1] at ha; rw [h.2]; exact h0 ha
      · rw [h.1] at ha; cases ha
      · exact ⟨0, by omega, by rw [h.2]; rfl⟩
    by_cases hd : (step b pc s).2 = .idle
    · have hg : finish.go b n (step b pc s).2 (step b pc s).1 = (step b pc s).1 := by
        rw [hd]
        cases n with
        | zero => rfl
        | succ n => rw [finish.go, if_pos rfl]
      rw [hg]
      exact ⟨st.done hd, st.headers hh, st.others, fun m hm h0 h1 => step_running hi hd hm h0 h1,
        hpos⟩
    · obtain ⟨h1, h2, h3, h4, h5⟩ := go_ok hp ha n _ _ (by omega) (st.next hd) (st.headers hh)
      refine ⟨h1, h2, fun q hq => ?_, h4, fun h0 => h5 (hpos h0)⟩
      obtain ⟨a1, a2, a3⟩ := st.others q hq
      obtain ⟨b1, b2, b3⟩ := h3 q hq
      exact ⟨fun i hi => (b1 i hi).trans (a1 i hi), b2.trans a2, b3.trans a3⟩

theorem go_par {b : Buf} {s₀ : PwmSt} {h : List PwmCall} {c : PwmCall} {cs : Threads} {t : Nat} :
    ∀ (n : Nat) (pc : Pc) (s : PwmSt), rank pc ≤ n → pc ≠ .idle →
      PwmPar AnyTime b s₀ h (Function.update cs t (some (c, pc))) s →
      PwmPar AnyTime b s₀ (c :: h) (Function.update cs t none) (finish.go b n pc s)
  | 0, pc, s, hr, hne, hu => by
    exfalso
    have := rank_step b pc s hne
    omega
  | n + 1, pc, s, hr, hne, hu => by
    have hlt := rank_step b pc s hne
    rw [finish.go, if_neg hne]
    by_cases hd : (step b pc s).2 = .idle
    · have hf := PwmPar.finish t hu (upd_same _ _ _) trivial hd
      rw [Function.update_idem] at hf
      rw [hd]
      cases n with
      | zero => exact hf
      | succ n => rw [finish.go, if_pos rfl]; exact hf
    · have hf := PwmPar.step t hu (upd_same _ _ _) trivial hd
      rw [Function.update_idem] at hf
      exact go_par n _ _ (by omega) hd hf

theorem upd_none (t : Nat) :
    Function.update (fun _ => none : Threads) t none = fun _ => none := by
  funext u
  by_cases h : u = t
  · subst h; rw [upd_same]
  · rw [upd_other _ _ h]

/-- One thread alone. -/
theorem par_of_use {b : Buf} {s₀ : PwmSt} (t : Nat) {h : List PwmCall} {c : Option PwmCall}
    {s : PwmSt} {pc : Pc} (hu : PwmUse b s₀ h c s pc) :
    PwmPar AnyTime b s₀ h (Function.update (fun _ => none) t (c.map fun k => (k, pc))) s := by
  induction hu with
  | init => simp only [Option.map_none, upd_none]; exact .init
  | start hu hc ih =>
    simp only [Option.map_none, upd_none] at ih
    exact PwmPar.start t ih rfl (fun u k pc' hk => (by cases hk)) hc
  | step hu hn ih =>
    simp only [Option.map_some] at ih
    have hf := PwmPar.step t ih (upd_same _ _ _) trivial hn
    rw [Function.update_idem] at hf
    exact hf
  | finish hu hn ih =>
    simp only [Option.map_some] at ih
    have hf := PwmPar.finish t ih (upd_same _ _ _) trivial hn
    rw [Function.update_idem] at hf
    exact hf
  | engine hu ih => exact .engine ih

/-- A pin whose bit is only in the first block is driven high for ever. -/
theorem stuck {b : Buf} (hs : 8192 ≤ b.size) {s : PwmSt} (hh : Headers b s.w.mem)
    (ha : s.active = true) {φ : Nat} (hφ : φ < 256) (hp : s.pos = b.base + 32 * φ) {q : Nat}
    (hb : ∀ i < 256, DataBit s i q ↔ i = 0) (k : Nat) (hk : 256 ≤ φ + k) :
    level ((engine b)^[k + 1] s) q = true := by
  obtain ⟨k0, rfl⟩ : ∃ k0, k = (256 - φ) + k0 := ⟨k - (256 - φ), by omega⟩
  clear hk
  induction k0 with
  | zero =>
    rw [Nat.add_zero]
    obtain ⟨h1, h2, h3⟩ := iter_engine hs hh ha hφ hp (256 - φ)
    have e : (φ + (256 - φ)) % 256 = 0 := by omega
    rw [e] at h3
    obtain ⟨-, -, -, -, h4⟩ := engine_eq hs (by rw [h1]; exact hh) h2 (by omega) h3
    rw [Function.iterate_succ_apply']
    have hbit : DataBit ((engine b)^[256 - φ] s) 0 q := by
      unfold DataBit; rw [h1]
      exact (hb 0 (by omega)).mpr rfl
    rw [(h4 q).1 hbit]
    rfl
  | succ k0 ih =>
    obtain ⟨h1, h2, h3⟩ := iter_engine hs hh ha hφ hp (256 - φ + k0 + 1)
    have hi : (φ + (256 - φ + k0 + 1)) % 256 < 256 := Nat.mod_lt _ (by omega)
    obtain ⟨-, -, -, -, h4⟩ := engine_eq hs (by rw [h1]; exact hh) h2 hi h3
    rw [← Nat.add_assoc, Function.iterate_succ_apply']
    by_cases hd : DataBit ((engine b)^[256 - φ + k0 + 1] s) ((φ + (256 - φ + k0 + 1)) % 256) q
    · rw [(h4 q).1 hd]
      have : DataBit s ((φ + (256 - φ + k0 + 1)) % 256) q := by
        unfold DataBit at hd ⊢; rw [h1] at hd; exact hd
      rw [(hb _ hi).mp this]
      rfl
    · rw [(h4 q).2 hd, ih]

/-- Initialising never fails. -/
theorem init_succeeds {b : Buf} (hb : BufOk b) (hs : 8192 ≤ b.size) (w : World) :
    ∃ s, init b w = .ok s := by
  have hg : gpioBus = 0x7E200000 := rfl
  have h1 : ∀ (i off : Nat) (mem : Nat → Word), i < 256 → off < 0x1000 →
      ∃ m, addControlBlock b (i * cbSize) off mem = .ok m := by
    intro i off mem hi ho
    have hc : cbSize = 32 := rfl
    have := hb.top
    unfold addControlBlock packInto
    rw [if_pos]
    · exact ⟨_, rfl⟩
    · simp only [List.all_cons, List.all_nil, Bool.and_true, Bool.and_eq_true, decide_eq_true_eq,
        cbSize, pwmInfo, pwmData, hg]
      omega
  have h2 : ∀ (n i : Nat) (mem : Nat → Word), i + n ≤ 256 → ∃ m, fill b n i mem = .ok m := by
    intro n
    induction n with
    | zero => exact fun i mem _ => ⟨mem, rfl⟩
    | succ n ih =>
      intro i mem hi
      obtain ⟨m, hm⟩ := h1 i gpioClear mem (by omega) (by decide)
      obtain ⟨m', hm'⟩ := ih (i + 1) m (by omega)
      exact ⟨m', by rw [fill, hm]; exact hm'⟩
  obtain ⟨m, hm⟩ := h1 0 gpioSet w.mem (by omega) (by decide)
  obtain ⟨m', hm'⟩ := h2 (pwmBlocks - 1) 1 m (by decide)
  rw [Nat.zero_mul] at hm
  unfold init
  rw [hm]
  simp only [bind, Except.bind, hm', pure, Except.pure]
  exact ⟨_, rfl⟩

theorem start_add {p : Nat} {d : ℝ} (hp : p < 32) (h0 : 0 ≤ d) (h1 : d ≤ 100) :
    startCall (.add p d) = .ok (.remStart p (some (⌊d * 256 / 100⌋).toNat)) := by
  have hd : ((PyNum.ofRat 0 : ℝ) ≤ₚ d && d ≤ₚ (PyNum.ofRat 100 : ℝ)) = true := by
    simp only [Bool.and_eq_true, le_iff, ofRat_eq]
    norm_num
    exact ⟨h0, h1⟩
  have hp' : (0 : Int) ≤ p ∧ (p : Int) < 32 := by omega
  simp only [startCall, startAdd, hd, if_true, if_pos hp', blockNumber_eq h0, Int.toNat_natCast]

theorem start_remove {p : Nat} (hp : p < 32) :
    startCall (.remove p) = .ok (.remStart p none) := by
  have hp' : (0 : Int) ≤ p ∧ (p : Int) < 32 := by omega
  simp only [startCall, startRemove, if_pos hp', Int.toNat_natCast]

theorem floor_50 : ⌊(50 : ℝ) * 256 / 100⌋ = 128 := by
  rw [show (50 : ℝ) * 256 / 100 = ((128 : ℤ) : ℝ) by norm_num, Int.floor_intCast]

theorem use_started {b : Buf} {s₀ : PwmSt} {h : List PwmCall} {c : Option PwmCall} {s : PwmSt}
    {pc : Pc} (hu : PwmUse b s₀ h c s pc) : ∀ k, c = some k → ∃ pc', startCall k = .ok pc' := by
  induction hu with
  | init => exact fun k hk => (by cases hk)
  | start _ hc _ => exact fun k hk => by cases hk; exact ⟨_, hc⟩
  | step _ _ ih => exact ih
  | finish _ _ ih => exact fun k hk => (by cases hk)
  | engine _ ih => exact ih

theorem slots_nonneg {b : Buf} {s₀ : PwmSt} {h : List PwmCall} {c : Option PwmCall} {s : PwmSt}
    {pc : Pc} (hu : PwmUse b s₀ h c s pc) : ∀ (q : Nat) (n : Int), slots h q = some n → 0 ≤ n := by
  induction hu with
  | init => exact fun q n hn => (by cases hn)
  | start _ _ ih => exact ih
  | step _ _ ih => exact ih
  | engine _ ih => exact ih
  | @finish h s c pc hu _ ih =>
    intro q n hn
    obtain ⟨pc', hc⟩ := use_started hu c rfl
    cases c with
    | add p d =>
      simp only [startCall, startAdd] at hc
      split at hc
      · rename_i hd
        simp only [Bool.and_eq_true] at hd
        have hd0 : 0 ≤ d := by simpa using hd.1
        rw [slots] at hn
        split at hn
        · cases hn
          exact Int.floor_nonneg.mpr (by positivity)
        · exact ih q n hn
      · cases hc
    | remove p =>
      rw [slots] at hn
      split at hn
      · cases hsl : slots h q with
        | none => rw [hsl] at hn; cases hn
        | some m => rw [hsl] at hn; cases hn; exact le_refl _
      · exact ih q n hn

omit [PyRound] in
theorem finish_remove_clear (b : Buf) (s : PwmSt) (p addr : Nat) (hl : lookup s.clear p = some addr) :
    (finish b (.remStart p none) s).clear = delete s.clear p := by
  simp only [finish, finish.go, step, hl, reduceCtorEq, if_false, gpioWrite, store, afterRemove]
  by_cases hc : ((delete s.clear p).isEmpty && s.active) = true
  · simp [hc]
  · simp [hc]

omit [PyRound] in
theorem delete_length {d : List (Nat × Nat)} {p : Nat} (h : p ∈ d.map (·.1)) :
    (delete d p).length < d.length := by
  unfold delete
  refine List.length_filter_lt_length_iff_exists.mpr ?_
  obtain ⟨x, hx, rfl⟩ := List.mem_map.mp h
  exact ⟨x, hx, by simp⟩

omit [PyRound] in
theorem iterKeys_changed (b : Buf) (size : Nat) (ps : List Nat) (s : PwmSt)
    (h : s.clear.length ≠ size) : iterKeys b size ps s = (s, some .runtime) := by
  cases ps with
  | nil => rw [iterKeys, if_neg h]
  | cons p ps => rw [iterKeys, if_neg h]

theorem nil_of_lookup {d : List (Nat × Nat)} (h : ∀ q, lookup d q = none) : d = [] := by
  cases d with
  | nil => rfl
  | cons x d =>
    have := h x.1
    simp [lookup] at this

theorem lookup_key {d : List (Nat × Nat)} {q : Nat} (h : q ∈ d.map (·.1)) :
    (lookup d q).isSome = true := by
  unfold lookup
  rw [Option.isSome_map, List.find?_isSome]
  obtain ⟨x, hx, rfl⟩ := List.mem_map.mp h
  exact ⟨x, hx, by simp⟩

theorem lookup_not_key {d : List (Nat × Nat)} {q : Nat} (h : q ∉ d.map (·.1)) :
    lookup d q = none := by
  unfold lookup
  rw [Option.map_eq_none_iff, List.find?_eq_none]
  intro x hx hq
  exact h (List.mem_map.mpr ⟨x, hx, by simpa using hq⟩)

end Pwm

end PyCNC
