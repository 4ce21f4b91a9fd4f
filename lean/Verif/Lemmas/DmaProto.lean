import Verif.Spec.DmaProto
import Verif.Lemmas.Watchdog

/-!
# Lemmas about the registers of the DMA controller
-/

namespace PyCNC

open Spec

namespace Chan

theorem tick_idle {c : Chan} (h : c.active = false) (f : Word → Word) : c.tick f = c := by
  simp only [tick, h, Bool.false_eq_true, if_false]

/-- A write that switches the channel off. -/
theorem writeCs_off {v : Word} (h31 : v.getLsbD 31 = false) (h30 : v.getLsbD 30 = false)
    (h0 : v.getLsbD 0 = false) (f : Word → Word) (c : Chan) :
    (writeCs f v c).active = false ∧ (writeCs f v c).loaded = c.loaded ∧
      (writeCs f v c).conblk = c.conblk ∧ (writeCs f v c).next = c.next := by
  have ha : ((v &&& 0x30FF0001#32) |||
      ((c.cs &&& ~~~0x30FF0001#32) &&& ~~~(v &&& 6#32))).getLsbD 0 = false := by
    simpa using h0
  simp only [writeCs, h31, h30, Bool.false_eq_true, if_false, active, ha, Bool.false_and]
  exact ⟨trivial, trivial, trivial, trivial⟩

/-- A write that starts a channel. -/
theorem writeCs_on {v : Word} (h31 : v.getLsbD 31 = false) (h30 : v.getLsbD 30 = false)
    (h0 : v.getLsbD 0 = true) (f : Word → Word) {c : Chan} (hl : c.loaded = false)
    (hc : c.conblk ≠ 0#32) :
    (writeCs f v c).active = true ∧ (writeCs f v c).loaded = true ∧
      (writeCs f v c).conblk = c.conblk ∧ (writeCs f v c).next = f c.conblk := by
  have ha : ((v &&& 0x30FF0001#32) |||
      ((c.cs &&& ~~~0x30FF0001#32) &&& ~~~(v &&& 6#32))).getLsbD 0 = true := by
    simp [h0]
  simp only [writeCs, h31, h30, Bool.false_eq_true, if_false, active, ha, hl, Bool.not_false,
    Bool.and_self, if_true, load, hc]
  exact ⟨trivial, trivial, trivial, trivial⟩

end Chan

namespace DmaHw

theorem upd_same (h : DmaHw) (ch : Nat) (f : Chan → Chan) : h.upd ch f ch = f (h ch) := by
  simp only [upd, if_true]

theorem upd_other (h : DmaHw) {ch i : Nat} (hi : i ≠ ch) (f : Chan → Chan) : h.upd ch f i = h i := by
  simp only [upd, hi, if_false]

theorem advance_idle {ch : Nat} : ∀ (l : List (Nat × (Word → Word))) (h : DmaHw),
    (h ch).active = false → h.advance l ch = h ch
  | [], _, _ => rfl
  | e :: l, h, h0 => by
    have h1 : h.upd e.1 (Chan.tick e.2) ch = h ch := by
      by_cases he : ch = e.1
      · subst he; rw [upd_same, Chan.tick_idle h0]
      · exact upd_other h he _
    show (h.upd e.1 (Chan.tick e.2)).advance l ch = h ch
    rw [advance_idle l _ (by rw [h1]; exact h0), h1]

theorem write_cs (f : Word → Word) (ch : Nat) (v : Word) (h : DmaHw) :
    h.write f (DmaProto.address ch + dmaCs) v = h.upd ch (Chan.writeCs f v) := by
  have h1 : (DmaProto.address ch + dmaCs) % 0x100 = 0 := by simp only [DmaProto.address, dmaCs]; omega
  have h2 : (DmaProto.address ch + dmaCs) / 0x100 = ch := by simp only [DmaProto.address, dmaCs]; omega
  simp only [write, h1, h2, if_true]

theorem write_conblk (f : Word → Word) (ch : Nat) (v : Word) (h : DmaHw) :
    h.write f (DmaProto.address ch + dmaConblk) v = h.upd ch (Chan.writeConblk v) := by
  have h1 : (DmaProto.address ch + dmaConblk) % 0x100 = 4 := by
    simp only [DmaProto.address, dmaConblk]; omega
  have h2 : (DmaProto.address ch + dmaConblk) / 0x100 = ch := by
    simp only [DmaProto.address, dmaConblk]; omega
  simp only [write, h1, h2, if_true, show ¬ (4 = 0) by decide, if_false]

theorem write_next (f : Word → Word) (ch : Nat) (v : Word) (h : DmaHw) :
    h.write f (DmaProto.address ch + dmaNext) v = h.upd ch (Chan.writeNext v) := by
  have h1 : (DmaProto.address ch + dmaNext) % 0x100 = 0x1C := by
    simp only [DmaProto.address, dmaNext]; omega
  have h2 : (DmaProto.address ch + dmaNext) / 0x100 = ch := by
    simp only [DmaProto.address, dmaNext]; omega
  simp only [write, h1, h2, if_true, show ¬ (0x1C = 0) by decide, show ¬ (0x1C = 4) by decide, if_false]

theorem read_cs (ch : Nat) (h : DmaHw) : h.read (DmaProto.address ch + dmaCs) = (h ch).cs := by
  have h1 : (DmaProto.address ch + dmaCs) % 0x100 = 0 := by simp only [DmaProto.address, dmaCs]; omega
  have h2 : (DmaProto.address ch + dmaCs) / 0x100 = ch := by simp only [DmaProto.address, dmaCs]; omega
  simp only [read, h1, h2, if_true]

theorem read_conblk (ch : Nat) (h : DmaHw) :
    h.read (DmaProto.address ch + dmaConblk) = (h ch).conblk := by
  have h1 : (DmaProto.address ch + dmaConblk) % 0x100 = 4 := by
    simp only [DmaProto.address, dmaConblk]; omega
  have h2 : (DmaProto.address ch + dmaConblk) / 0x100 = ch := by
    simp only [DmaProto.address, dmaConblk]; omega
  simp only [read, h1, h2, if_true, show ¬ (4 = 0) by decide, if_false]

end DmaHw

/-! ### Other channels -/

/-- What the engines do to a channel depends on that channel only. -/
theorem advance_congr {i : Nat} : ∀ (l : List (Nat × (Word → Word))) (h h' : DmaHw),
    h i = h' i → h.advance l i = h'.advance l i
  | [], _, _, e => e
  | x :: l, h, h', e => by
    refine advance_congr l (h.upd x.1 (Chan.tick x.2)) (h'.upd x.1 (Chan.tick x.2)) ?_
    simp only [DmaHw.upd, e]

theorem passed_congr (act : Nat → Moment) {i : Nat} : ∀ (k n : Nat) (h h' : DmaHw),
    h i = h' i → passed act n k h i = passed act n k h' i
  | 0, _, _, _, e => e
  | k + 1, n, _, _, e => passed_congr act k (n + 1) _ _ (advance_congr _ _ _ e)

theorem passed_succ (act : Nat → Moment) : ∀ (k n : Nat) (h : DmaHw),
    passed act n (k + 1) h = (passed act n k h).advance (act (n + k)).done
  | 0, _, _ => rfl
  | k + 1, n, h => by
    rw [passed, passed_succ act k (n + 1), passed, show n + 1 + k = n + (k + 1) by omega]

theorem passed_idle (act : Nat → Moment) {i : Nat} : ∀ (k n : Nat) (h : DmaHw),
    (h i).active = false → passed act n k h i = h i
  | 0, _, _, _ => rfl
  | k + 1, n, h, h0 => by
    have h1 := DmaHw.advance_idle (act n).done h h0
    rw [passed, passed_idle act k (n + 1) _ (by rw [h1]; exact h0), h1]

/-- One write to a register of the channel `ch`: other channels only go on. -/
theorem write_other (act : Nat → Moment) {ch i : Nat} (hi : i ≠ ch) {off : Nat}
    {g : (Word → Word) → Chan → Chan} {v : Word}
    (hoff : ∀ f (h : DmaHw), h.write f off v = h.upd ch (g f)) (s : DmaBus) :
    (s.write act off v).hw i = s.hw.advance (act s.n).done i := by
  simp only [DmaBus.write, hoff]
  exact DmaHw.upd_other _ hi _

namespace DmaProto

variable (act : Nat → Moment)

theorem run_n (ch : Nat) (b : Buf) (s : DmaBus) : (runDma act ch b s).n = s.n + 4 := rfl

theorem stop_n (ch : Nat) (s : DmaBus) : (stopDma act ch s).n = s.n + 4 := rfl

theorem run_other {ch i : Nat} (hi : i ≠ ch) (b : Buf) (s : DmaBus) :
    (runDma act ch b s).hw i = passed act s.n 4 s.hw i := by
  simp only [runDma]
  rw [write_other act hi (fun f h => DmaHw.write_cs f ch _ h)]
  simp only [passed]
  refine advance_congr _ _ _ ?_
  rw [write_other act hi (fun f h => DmaHw.write_cs f ch _ h)]
  refine advance_congr _ _ _ ?_
  rw [write_other act hi (fun f h => DmaHw.write_conblk f ch _ h)]
  refine advance_congr _ _ _ ?_
  rw [write_other act hi (fun f h => DmaHw.write_cs f ch _ h)]

theorem stop_other {ch i : Nat} (hi : i ≠ ch) (s : DmaBus) :
    (stopDma act ch s).hw i = passed act s.n 4 s.hw i := by
  simp only [stopDma, DmaBus.read]
  rw [write_other act hi (fun f h => DmaHw.write_cs f ch _ h)]
  simp only [passed]
  refine advance_congr _ _ _ ?_
  rw [write_other act hi (fun f h => DmaHw.write_cs f ch _ h)]
  refine advance_congr _ _ _ ?_
  rw [write_other act hi (fun f h => DmaHw.write_cs f ch _ h)]

theorem feed_other {ch i : Nat} (hi : i ≠ ch) (b : Buf) (s : DmaBus) :
    (feed act ch b s).hw i = passed act s.n 1 s.hw i := by
  simp only [feed]
  rw [write_other act hi (fun f h => DmaHw.write_next f ch _ h)]
  rfl

/-- A written address is not changed by dropping its five low bits. -/
theorem base_word {b : Buf} (ha : 32 ∣ b.base) :
    BitVec.ofNat 32 b.base &&& ~~~31#32 = BitVec.ofNat 32 b.base := by
  obtain ⟨k, hk⟩ := ha
  apply BitVec.eq_of_getLsbD_eq
  intro i hi
  rw [BitVec.getLsbD_and]
  rcases Nat.lt_or_ge i 5 with h | h
  · have : (BitVec.ofNat 32 b.base).getLsbD i = false := by
      rw [BitVec.getLsbD_ofNat, hk, show 32 = 2 ^ 5 by norm_num, Nat.testBit_two_pow_mul]
      simp; omega
    simp [this]
  · have : (~~~31#32).getLsbD i = true := by
      rw [BitVec.getLsbD_not, BitVec.getLsbD_ofNat]
      have : Nat.testBit 31 i = false := Nat.testBit_lt_two_pow (by
        calc 31 < 2 ^ 5 := by norm_num
          _ ≤ 2 ^ i := Nat.pow_le_pow_right (by norm_num) h)
      simp [this, hi]
    rw [this, Bool.and_true]

theorem base_ne {b : Buf} (hb : b.base < 2 ^ 32) (h0 : 0 < b.base) : BitVec.ofNat 32 b.base ≠ 0#32 := by
  intro h
  have := congrArg BitVec.toNat h
  simp only [BitVec.toNat_ofNat] at this
  rw [Nat.mod_eq_of_lt hb] at this
  simp at this
  omega

theorem run_same {ch : Nat} {b : Buf} (hb : b.base < 2 ^ 32) (h0 : 0 < b.base) (ha : 32 ∣ b.base)
    {s : DmaBus} (hi : ChIdle (s.hw ch)) :
    ChRuns ((runDma act ch b s).hw ch) b.base
      ((act (s.n + 3)).nextOf (BitVec.ofNat 32 b.base)).toNat := by
  simp only [runDma]
  -- the first write
  set s1 := s.write act (address ch + dmaCs) csEnd with e1
  have k1 : ChIdle (s1.hw ch) := by
    simp only [e1, DmaBus.write, DmaHw.write_cs, DmaHw.upd_same, DmaHw.advance_idle _ _ hi.off]
    obtain ⟨j1, j2, -⟩ := Chan.writeCs_off (v := csEnd) (by decide) (by decide) (by decide)
      (act s.n).nextOf (s.hw ch)
    exact ⟨j1, j2.trans hi.fresh⟩
  set s2 := s1.write act (address ch + dmaConblk) (BitVec.ofNat 32 b.base) with e2
  have k2 : ChIdle (s2.hw ch) ∧ (s2.hw ch).conblk = BitVec.ofNat 32 b.base := by
    simp only [e2, DmaBus.write, DmaHw.write_conblk, DmaHw.upd_same, DmaHw.advance_idle _ _ k1.off,
      Chan.writeConblk, k1.off, k1.fresh, Bool.or_self, Bool.false_eq_true, if_false]
    exact ⟨⟨k1.off, rfl⟩, base_word ha⟩
  set s3 := s2.write act (address ch + dmaCs) (csPriority 7#32 ||| csPanic 7#32 ||| csDisdebug) with e3
  have k3 : ChIdle (s3.hw ch) ∧ (s3.hw ch).conblk = BitVec.ofNat 32 b.base := by
    simp only [e3, DmaBus.write, DmaHw.write_cs, DmaHw.upd_same, DmaHw.advance_idle _ _ k2.1.off]
    obtain ⟨j1, j2, j3, -⟩ := Chan.writeCs_off
      (v := csPriority 7#32 ||| csPanic 7#32 ||| csDisdebug) (by decide) (by decide) (by decide)
      (act s2.n).nextOf (s2.hw ch)
    exact ⟨⟨j1, j2.trans k2.1.fresh⟩, j3.trans k2.2⟩
  simp only [DmaBus.write, DmaHw.write_cs, DmaHw.upd_same, DmaHw.advance_idle _ _ k3.1.off]
  have hn : s3.n = s.n + 3 := rfl
  rw [hn]
  obtain ⟨j1, j2, j3, j4⟩ := Chan.writeCs_on
    (v := csPriority 7#32 ||| csPanic 7#32 ||| csDisdebug ||| csActive) (by decide) (by decide)
    (by decide) (act (s.n + 3)).nextOf k3.1.fresh (by rw [k3.2]; exact base_ne hb h0)
  refine ⟨j1, j2, ?_, ?_⟩
  · rw [j3, k3.2, BitVec.toNat_ofNat, Nat.mod_eq_of_lt hb]
  · rw [j4, k3.2]

theorem stop_same (ch : Nat) (s : DmaBus) :
    (stopDma act ch s).hw ch = ⟨0#32, 0#32, 0#32, false⟩ := by
  simp only [stopDma, DmaBus.read]
  simp only [DmaBus.write, DmaHw.write_cs, DmaHw.upd_same]
  simp only [Chan.writeCs]
  rw [if_pos]
  simp

end DmaProto

/-! ### The life of a channel -/

/-- A channel between two calls: it executes a block of its buffer, or it does nothing. -/
def Proper (b : Buf) (c : Chan) : Prop :=
  (c.active = true ∧ c.loaded = true ∧ IsBlock b c.conblk ∧ (c.next = 0#32 ∨ IsBlock b c.next)) ∨
    (c.active = false ∧ c.loaded = false ∧ c.conblk = 0#32)

theorem block_ne {b : Buf} (h0 : 0 < b.base) {a : Word} (h : IsBlock b a) : a ≠ 0#32 := by
  rintro rfl
  obtain ⟨k, h, -⟩ := h
  simp at h
  omega

theorem tick_proper {b : Buf} (h0 : 0 < b.base) {f : Word → Word} (hf : Linked b f) {c : Chan}
    (h : Proper b c) : Proper b (c.tick f) := by
  rcases h with ⟨h1, h2, h3, h4⟩ | ⟨h1, h2, h3⟩
  · simp only [Chan.tick, h1, if_true, Chan.load]
    rcases h4 with h4 | h4
    · rw [if_pos h4]
      refine Or.inr ⟨?_, rfl, rfl⟩
      simp [Chan.active]
    · rw [if_neg (block_ne h0 h4)]
      exact Or.inl ⟨h1, rfl, h4, hf _ h4⟩
  · rw [Chan.tick_idle h1]
    exact Or.inr ⟨h1, h2, h3⟩

theorem advance_proper {b : Buf} (h0 : 0 < b.base) {ch : Nat} :
    ∀ (l : List (Nat × (Word → Word))) (h : DmaHw), (∀ e ∈ l, e.1 = ch → Linked b e.2) →
      Proper b (h ch) → Proper b (h.advance l ch)
  | [], _, _, hp => hp
  | e :: l, h, hm, hp => by
    refine advance_proper h0 l (h.upd e.1 (Chan.tick e.2))
      (fun x hx => hm x (List.mem_cons_of_mem _ hx)) ?_
    by_cases he : e.1 = ch
    · have := hm e List.mem_cons_self he
      subst he
      rw [DmaHw.upd_same]
      exact tick_proper h0 this hp
    · rw [DmaHw.upd_other _ (Ne.symm he)]
      exact hp

theorem passed_proper {b : Buf} (h0 : 0 < b.base) {ch : Nat} {act : Nat → Moment}
    (hm : ∀ n, LinkedIn b ch (act n)) : ∀ (k n : Nat) (h : DmaHw),
      Proper b (h ch) → Proper b (passed act n k h ch)
  | 0, _, _, hp => hp
  | k + 1, n, _, hp =>
    passed_proper h0 hm k (n + 1) _ (advance_proper h0 _ _ (hm n).1 hp)

theorem isBlock_base {b : Buf} (hb : b.base < 2 ^ 32) (hs : 0 < b.size) :
    IsBlock b (BitVec.ofNat 32 b.base) :=
  ⟨0, by rw [BitVec.toNat_ofNat, Nat.mod_eq_of_lt hb]; rfl, by simpa using hs⟩

theorem life_proper {b : Buf} (hb : b.base < 2 ^ 32) (h0 : 0 < b.base) (ha : 32 ∣ b.base)
    (hs : 0 < b.size) {ch : Nat} {h : DmaHw} (hl : ChLife ch b h) : Proper b (h ch) := by
  induction hl with
  | reset h1 => rw [h1]; exact Or.inr ⟨rfl, rfl, rfl⟩
  | engine _ hm ih => exact advance_proper h0 _ _ hm ih
  | @run act s _ h1 hm ih =>
    rcases ih with ⟨h2, -⟩ | ⟨-, h2, -⟩
    · rw [h1] at h2; cases h2
    obtain ⟨j1, j2, j3, j4⟩ := DmaProto.run_same act hb h0 ha ⟨h1, h2⟩
    have hbase := isBlock_base hb hs
    refine Or.inl ⟨j1, j2, ⟨0, by rw [j3]; rfl, by simpa using hs⟩, ?_⟩
    rw [BitVec.toNat_inj.1 j4]
    exact (hm (s.n + 3)).2 _ hbase
  | stop _ _ => rw [DmaProto.stop_same]; exact Or.inr ⟨rfl, rfl, rfl⟩
  | @feed act s _ hm ih =>
    have h1 := passed_proper h0 hm 1 s.n _ ih
    simp only [passed] at h1
    simp only [DmaProto.feed, DmaBus.write, DmaHw.write_next, DmaHw.upd_same, Chan.writeNext,
      DmaProto.base_word ha]
    rcases h1 with ⟨h2, h3, h4, -⟩ | ⟨h2, h3, h4⟩
    · exact Or.inl ⟨h2, h3, h4, Or.inr (isBlock_base hb hs)⟩
    · exact Or.inr ⟨h2, h3, h4⟩
  | otherRun _ hne hm ih =>
    rw [DmaProto.run_other _ hne.symm]; exact passed_proper h0 hm _ _ _ ih
  | otherStop _ hne hm ih =>
    rw [DmaProto.stop_other _ hne.symm]; exact passed_proper h0 hm _ _ _ ih
  | otherFeed _ hne hm ih =>
    rw [DmaProto.feed_other _ hne.symm]; exact passed_proper h0 hm _ _ _ ih

/-- A channel that is stopped, or at a block that leads forward. -/
def Forward (c : Chan) : Prop :=
  (c.active = true ∧ c.conblk ≠ 0#32 ∧ (c.next = 0#32 ∨ c.conblk.toNat < c.next.toNat)) ∨
    (c.active = false ∧ c.conblk = 0#32)

theorem tick_forward {f : Word → Word} (hf : ∀ a, f a = 0#32 ∨ a.toNat < (f a).toNat) {c : Chan}
    (h : Forward c) : Forward (c.tick f) ∧ (c.conblk = 0#32 → (c.tick f).conblk = 0#32) ∧
      ((c.tick f).conblk = 0#32 ∨ c.conblk.toNat ≤ (c.tick f).conblk.toNat) := by
  rcases h with ⟨h1, h2, h3⟩ | ⟨h1, h2⟩
  · simp only [Chan.tick, h1, if_true, Chan.load]
    by_cases h : c.next = 0#32
    · rw [if_pos h]
      exact ⟨Or.inr ⟨by simp [Chan.active], rfl⟩, fun _ => rfl, Or.inl rfl⟩
    · rw [if_neg h]
      rcases h3 with h3 | h3
      · exact absurd h3 h
      · exact ⟨Or.inl ⟨h1, h, hf _⟩, fun h => absurd h h2, Or.inr h3.le⟩
  · rw [Chan.tick_idle h1]
    exact ⟨Or.inr ⟨h1, h2⟩, fun h => h, Or.inr le_rfl⟩

theorem advance_forward {ch : Nat} : ∀ (l : List (Nat × (Word → Word))) (h : DmaHw),
    (∀ e ∈ l, e.1 = ch → ∀ a, e.2 a = 0#32 ∨ a.toNat < (e.2 a).toNat) → Forward (h ch) →
      ((h ch).conblk = 0#32 → (h.advance l ch).conblk = 0#32) ∧
      ((h.advance l ch).conblk = 0#32 ∨ (h ch).conblk.toNat ≤ (h.advance l ch).conblk.toNat)
  | [], _, _, _ => ⟨fun h => h, Or.inr le_rfl⟩
  | e :: l, h, hm, hp => by
    have hm' : ∀ x ∈ l, x.1 = ch → ∀ a, x.2 a = 0#32 ∨ a.toNat < (x.2 a).toNat :=
      fun x hx => hm x (List.mem_cons_of_mem _ hx)
    show ((h ch).conblk = 0#32 → ((h.upd e.1 (Chan.tick e.2)).advance l ch).conblk = 0#32) ∧
      (((h.upd e.1 (Chan.tick e.2)).advance l ch).conblk = 0#32 ∨
        (h ch).conblk.toNat ≤ ((h.upd e.1 (Chan.tick e.2)).advance l ch).conblk.toNat)
    by_cases he : e.1 = ch
    · have hf := hm e List.mem_cons_self he
      subst he
      obtain ⟨j1, j2, j3⟩ := tick_forward hf hp
      have e1 := DmaHw.upd_same h e.1 (Chan.tick e.2)
      obtain ⟨k1, k2⟩ := advance_forward l (h.upd e.1 (Chan.tick e.2)) hm' (by rw [e1]; exact j1)
      rw [e1] at k1 k2
      refine ⟨fun hz => k1 (j2 hz), ?_⟩
      rcases k2 with k2 | k2
      · exact Or.inl k2
      · rcases j3 with j3 | j3
        · exact Or.inl (k1 j3)
        · exact Or.inr (j3.trans k2)
    · have e1 := DmaHw.upd_other h (Ne.symm he) (Chan.tick e.2)
      obtain ⟨k1, k2⟩ := advance_forward l (h.upd e.1 (Chan.tick e.2)) hm' (by rw [e1]; exact hp)
      rw [e1] at k1 k2
      exact ⟨k1, k2⟩

/-! ### The watchdog -/

/-- The registers say what the model of the watchdog says. -/
structure DogRel (s : DogSys) (t : WdSt) : Prop where
  w : s.w = t.w
  active : (s.hw 13).active = t.active
  regs : t.active = true →
    (s.hw 13).loaded = true ∧ (s.hw 13).conblk.toNat = t.pos ∧ (s.hw 13).next.toNat = t.next

theorem word_of_toNat {v : Word} {n : Nat} (h : v.toNat = n) : v = 0#32 ↔ n = 0 := by
  rw [← h, ← BitVec.toNat_inj]
  rfl

theorem load_rel {b : Buf} {w : World} {c : Chan} {t : WdSt} {a : Word} {n : Nat} (hc : c.active = true)
    (hw : t.w = w) (ha : a.toNat = n) :
    (c.load (nextWord b w) a).active = (Wd.load b t n).active ∧
      ((Wd.load b t n).active = true → (c.load (nextWord b w) a).loaded = true ∧
        (c.load (nextWord b w) a).conblk.toNat = (Wd.load b t n).pos ∧
        (c.load (nextWord b w) a).next.toNat = (Wd.load b t n).next) := by
  unfold Chan.load Wd.load
  by_cases h : n = 0
  · rw [if_pos ((word_of_toNat ha).2 h), if_pos h]
    refine ⟨by simp [Chan.active], fun h => (by cases h)⟩
  · rw [if_neg (mt (word_of_toNat ha).1 h), if_neg h]
    refine ⟨hc, fun _ => ⟨rfl, ha, ?_⟩⟩
    simp only [nextWord, ha, hw]

theorem dogDo_rel {b : Buf} (hb : b.base < 2 ^ 32) (ha : 32 ∣ b.base) {s : DogSys} {t : WdSt}
    (h : DogRel s t) (e : DogEv) :
    DogRel (dogDo b s e) (wdRun b t (dogEvents [e])) := by
  cases e with
  | tick =>
    show DogRel (dogDo b s .tick) (Wd.tick b t)
    simp only [dogDo, Wd.tick]
    by_cases hact : t.active = true
    · obtain ⟨h1, h2, h3⟩ := h.regs hact
      have h4 : (s.hw 13).active = true := h.active.trans hact
      rw [if_pos h4, if_pos hact]
      have hw : (Dma.execBlock b (s.hw 13).conblk.toNat s.w).1 = (Dma.execBlock b t.pos t.w).1 := by
        rw [h2, h.w]
      obtain ⟨j1, j2⟩ := load_rel (b := b) (t := { t with w := (Dma.execBlock b t.pos t.w).1 }) h4 rfl
        h3
      refine ⟨?_, ?_, ?_⟩
      · simp only [hw, Wd.load]
        split <;> rfl
      · simp only [DmaHw.upd_same, Chan.tick, h4, if_true, hw]; exact j1
      · simp only [DmaHw.upd_same, Chan.tick, h4, if_true, hw]; exact j2
    · have hf : t.active = false := by simpa using hact
      have h4 : (s.hw 13).active = false := h.active.trans hf
      rw [if_neg (by rw [h4]; decide), if_neg hact]
      exact h
  | feed =>
    show DogRel (dogDo b s .feed) (Wd.feed b t)
    simp only [dogDo, Wd.feed, DmaProto.feed, DmaBus.write, DmaHw.write_next]
    refine ⟨h.w, ?_, fun hact => ?_⟩
    · simp only [DmaHw.upd_same, Chan.writeNext]; exact h.active
    · obtain ⟨h1, h2, -⟩ := h.regs hact
      simp only [DmaHw.upd_same, Chan.writeNext, DmaProto.base_word ha, BitVec.toNat_ofNat,
        Nat.mod_eq_of_lt hb]
      exact ⟨h1, h2, trivial⟩
  | other ch c =>
    show DogRel (dogDo b s (.other ch c)) t
    simp only [dogDo]
    split
    · exact h
    · rename_i hne
      exact ⟨h.w, by simp only [DmaHw.upd_other _ (Ne.symm hne)]; exact h.active,
        fun hact => by simp only [DmaHw.upd_other _ (Ne.symm hne)]; exact h.regs hact⟩

theorem dogRun_rel {b : Buf} (hb : b.base < 2 ^ 32) (ha : 32 ∣ b.base) : ∀ (evs : List DogEv)
    {s : DogSys} {t : WdSt}, DogRel s t → DogRel (dogRun b s evs) (wdRun b t (dogEvents evs))
  | [], _, _, h => h
  | e :: evs, s, t, h => by
    have h1 := dogRun_rel hb ha evs (dogDo_rel hb ha h e)
    have e1 : dogEvents (e :: evs) = dogEvents [e] ++ dogEvents evs := by
      cases e <;> rfl
    rw [e1]
    simp only [wdRun, List.foldl_append] at h1 ⊢
    exact h1

theorem dogStart_rel {b : Buf} (hb : b.base < 2 ^ 32) (h0 : 0 < b.base) (ha : 32 ∣ b.base) {s : DogSys}
    (hi : ChIdle (s.hw 13)) :
    (∀ t, Wd.start b s.w = .ok t → ∃ s', dogStart b s = .ok s') ∧
    ∀ s', dogStart b s = .ok s' → ∃ t, Wd.start b s.w = .ok t ∧ DogRel s' t := by
  unfold Wd.start dogStart
  cases hm : packInto s.w.mem 0 (Wd.data b) with
  | error e => exact ⟨fun _ h => (by cases h), fun _ h => (by cases h)⟩
  | ok mem =>
    refine ⟨fun _ _ => ⟨_, rfl⟩, fun s' h => ⟨_, rfl, ?_⟩⟩
    cases h
    obtain ⟨j1, j2, j3, j4⟩ := DmaProto.run_same
      (fun _ => ⟨[], nextWord b { s.w with mem := mem }⟩) (ch := 13) (s := ⟨s.hw, 0⟩) hb h0 ha hi
    have hne : ¬ b.base = 0 := by omega
    simp only [Wd.load, hne, if_false]
    refine ⟨rfl, j1, fun _ => ⟨j2, j3, j4.trans ?_⟩⟩
    simp only [nextWord, BitVec.toNat_ofNat, Nat.mod_eq_of_lt hb]

end PyCNC
