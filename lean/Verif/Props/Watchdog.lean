import Verif.Lemmas.Watchdog

/-!
# The hardware watchdog (C51)

Time is counted in completed control blocks (the whole chain of 2047 delay blocks takes about 15
seconds).
-/

namespace PyCNC.Props

open PyCNC Spec Wd

/-! ### Concrete data for the examples -/

/-- A buffer. -/
def wdBuf : Buf := ⟨0x10000, 65536⟩

theorem wdBuf_ok : BufOk wdBuf := ⟨by decide, by decide, by decide⟩

/-- A world in which all pins are outputs. -/
def wdWorld : World :=
  ⟨fun _ => 0, ⟨fun _ => 0x9249249#32, fun _ => true, fun _ => 0, fun _ => 0⟩, [], 0⟩

/-- **C51.** As long as in every stretch without a call of `feed` fewer than 2047 blocks are
completed, the watchdog does nothing: it keeps running and neither it writes a register nor it
changes a pin. -/
theorem C51_fed {b : Buf} (hb : BufOk b) (hs : 65536 ≤ b.size) {w : World} {s : WdSt}
    (h : Wd.start b w = .ok s) (evs : List WdEv) (hf : FedWithin 2047 evs) :
    (wdRun b s evs).w.gpio = w.gpio ∧ (wdRun b s evs).w.log = w.log ∧
      (wdRun b s evs).active = true := by
  obtain ⟨h1, h2, h3⟩ := start_at hb hs h
  obtain ⟨i, f, h4, h5, -⟩ := fed_run hb hs h1 evs hf
  rw [h5]
  exact ⟨h2, h3, h4.active⟩

example : ∃ s, Wd.start wdBuf wdWorld = .ok s ∧ FedWithin 2047 [.tick, .tick, .feed, .tick] := by
  obtain ⟨s, hs⟩ := start_succeeds wdBuf_ok (by decide) wdWorld
  refine ⟨s, hs, fun l hl _ => ?_⟩
  have := hl.length_le
  simp only [List.length_cons, List.length_nil] at this
  omega

/-- **C51.** Whatever has happened before: 2049 blocks after the last call of `feed` the last
block has been executed, GPIO 0 to 29 are inputs, and they stay so. -/
theorem C51_starved {b : Buf} (hb : BufOk b) (hs : 65536 ≤ b.size) {w : World} {s : WdSt}
    (h : Wd.start b w = .ok s) (before after : List WdEv) {p : Nat} (hp : p < 30) :
    fsel (wdRun b s (before ++ List.replicate 2049 .tick ++ after)).w.gpio p = 0 := by
  obtain ⟨h1, -⟩ := start_at hb hs h
  obtain ⟨hg, -⟩ := good_run hb hs before (Or.inl ⟨0, false, h1⟩)
  have hoff : Off (wdRun b (wdRun b s before) (List.replicate 2049 .tick)).w.gpio := by
    rcases hg with ⟨i, f, hi⟩ | ⟨h2, h3⟩
    · refine ticks_off hb hs 2049 hi ?_
      unfold need
      split <;> omega
    · exact (good_run hb hs _ (Or.inr ⟨h2, h3⟩)).2 h3
  have hgood := (good_run hb hs (List.replicate 2049 .tick) hg).1
  have := (good_run hb hs after hgood).2 hoff
  refine off_fsel ?_ hp
  simpa only [wdRun, List.foldl_append] using this

/-- Before, the pins were outputs. -/
example : ∃ s, Wd.start wdBuf wdWorld = .ok s ∧ fsel s.w.gpio 21 = 1 := by
  obtain ⟨s, hs⟩ := start_succeeds wdBuf_ok (by decide) wdWorld
  obtain ⟨-, h2, -⟩ := start_at wdBuf_ok (by decide) hs
  exact ⟨s, hs, by rw [h2]; decide⟩

/-- **C51.** The bound of `C51_fed` is sharp: once 2047 blocks were completed after the start
without `feed`, calling `feed` is too late, the pins become inputs when the next block is
completed. -/
theorem C51_too_late {b : Buf} (hb : BufOk b) (hs : 65536 ≤ b.size) {w : World} {s : WdSt}
    (h : Wd.start b w = .ok s) (n : Nat) (after : List WdEv) {p : Nat} (hp : p < 30) :
    fsel (wdRun b s (List.replicate 2047 .tick ++ List.replicate n .feed ++ [.tick] ++
      after)).w.gpio p = 0 := by
  obtain ⟨h1, -⟩ := start_at hb hs h
  have hwalk : ∀ k ≤ 2047, At b (wdRun b s (List.replicate k .tick)) k false := by
    intro k
    induction k with
    | zero => exact fun _ => h1
    | succ k ih =>
      intro hk
      have := (tick_delay hb hs (ih (by omega)) (by omega)).1
      rw [List.replicate_succ', wdRun, List.foldl_append]
      exact this
  have h2 := hwalk 2047 (le_refl _)
  have hfeed : ∀ (n : Nat) (s : WdSt) (f : Bool), At b s 2047 f →
      ∃ f', At b (wdRun b s (List.replicate n .feed)) 2047 f' := by
    intro n
    induction n with
    | zero => exact fun s f h => ⟨f, h⟩
    | succ n ih => exact fun s f h => ih _ true (feed_at h).1
  obtain ⟨f', h3⟩ := hfeed n _ _ h2
  obtain ⟨h4, h5⟩ := tick_last hb hs h3
  have hgood : Good b (tick b (wdRun b (wdRun b s (List.replicate 2047 .tick))
      (List.replicate n .feed))) := by
    rcases h5 with ⟨-, h5⟩ | ⟨-, h5⟩
    · exact Or.inl ⟨0, false, h5⟩
    · exact Or.inr ⟨h5, h4⟩
  have := (good_run hb hs after hgood).2 h4
  refine off_fsel ?_ hp
  rw [wdRun, List.foldl_append, List.foldl_append, List.foldl_append]
  exact this

example : ∃ s, Wd.start wdBuf wdWorld = .ok s := start_succeeds wdBuf_ok (by decide) wdWorld

/-- The events carry their times; every block takes at least `δ`: between the first and the last of
`n` completions of blocks in a row at least `(n - 1)·δ` pass. -/
def BlocksLast (δ : Rat) (evs : List (Rat × WdEv)) : Prop :=
  ∀ t l t', ((t, .tick) :: (l ++ [(t', .tick)])) <:+: evs → (∀ e ∈ l, e.2 = WdEv.tick) →
    δ * (l.length + 1) ≤ t' - t

/-- Stretches without a call of `feed` are not longer than `period`. -/
def FedEvery (period : Rat) (evs : List (Rat × WdEv)) : Prop :=
  ∀ t l t', ((t, .tick) :: (l ++ [(t', .tick)])) <:+: evs → (∀ e ∈ l, e.2 = WdEv.tick) →
    t' - t ≤ period

/-- **C51**, in time.  If every block takes at least `δ` and the thread of `watchdog.py` calls
`feed` at least once in every period of length `period < 2046·δ` (3 seconds of sleep against a chain
of 15 seconds), the watchdog does nothing. -/
theorem C51_thread {b : Buf} (hb : BufOk b) (hs : 65536 ≤ b.size) {w : World} {s : WdSt}
    (h : Wd.start b w = .ok s) (evs : List (Rat × WdEv)) {δ period : Rat} (hδ : 0 < δ)
    (hblocks : BlocksLast δ evs) (hfeed : FedEvery period evs) (hp : period < 2046 * δ) :
    (wdRun b s (evs.map (·.2))).w.gpio = w.gpio ∧ (wdRun b s (evs.map (·.2))).active = true := by
  have hf : FedWithin 2047 (evs.map (·.2)) := by
    rintro l ⟨a, c, hl⟩ hno
    by_contra hlen
    obtain ⟨x, y, hxy, hx, -⟩ := List.map_eq_append_iff.1 hl.symm
    obtain ⟨x1, m, rfl, -, hm⟩ := List.map_eq_append_iff.1 hx
    have hinf : m <:+: evs := ⟨x1, y, by rw [hxy]⟩
    have hml : 2047 ≤ m.length := by
      rw [← List.length_map (f := (·.2)) (as := m), hm]
      omega
    have htick : ∀ e ∈ m, e.2 = WdEv.tick := by
      intro e he
      have : e.2 ∈ l := by rw [← hm]; exact List.mem_map_of_mem he
      cases h2 : e.2 with
      | tick => rfl
      | feed => exact absurd (h2 ▸ this) hno
    cases m with
    | nil => simp at hml
    | cons e m =>
      obtain ⟨t, e⟩ := e
      have he : e = .tick := htick (t, e) List.mem_cons_self
      subst he
      rcases List.eq_nil_or_concat m with rfl | ⟨m', ⟨t', e'⟩, rfl⟩
      · simp at hml
      rw [List.concat_eq_append] at *
      have he : e' = .tick := htick (t', e') (by simp)
      subst he
      have hm' : ∀ e ∈ m', e.2 = WdEv.tick := fun e he => htick e (by simp [he])
      have h1 := hblocks t m' t' hinf hm'
      have h2 := hfeed t m' t' hinf hm'
      have h3 : (2046 : Rat) ≤ m'.length + 1 := by
        simp only [List.length_cons, List.length_append, List.length_nil] at hml
        have : 2045 ≤ m'.length := by omega
        have : (2045 : Rat) ≤ m'.length := by exact_mod_cast this
        linarith
      have := mul_le_mul_of_nonneg_left h3 hδ.le
      linarith
  obtain ⟨h1, -, h2⟩ := C51_fed hb hs h _ hf
  exact ⟨h1, h2⟩

/-- A block every 7 ms and `feed` after 3 seconds. -/
example : BlocksLast (7 / 1000) [(0, .tick), (7 / 1000, .tick), (3, .feed)] ∧
    FedEvery 3 [(0, .tick), (7 / 1000, .tick), (3, .feed)] ∧ (3 : Rat) < 2046 * (7 / 1000) := by
  have key : ∀ t l t', ((t, WdEv.tick) :: (l ++ [(t', WdEv.tick)])) <:+:
      [((0 : Rat), WdEv.tick), (7 / 1000, .tick), (3, .feed)] →
      l = [] ∧ t = 0 ∧ t' = 7 / 1000 := by
    intro t l t' h
    have hlen := h.length_le
    simp only [List.length_cons, List.length_append, List.length_nil] at hlen
    match l, hlen with
    | [], _ =>
      obtain ⟨a, c, h⟩ := h
      match a with
      | [] => simp_all
      | [x] => simp_all
      | x :: y :: z =>
        have := congrArg List.length h
        simp at this
        omega
    | [x], _ =>
      have := h.sublist.eq_of_length (by simp)
      simp at this
    | x :: y :: z, h => simp at h; omega
  refine ⟨fun t l t' h _ => ?_, fun t l t' h _ => ?_, by norm_num⟩
  · obtain ⟨rfl, rfl, rfl⟩ := key t l t' h
    norm_num
  · obtain ⟨rfl, rfl, rfl⟩ := key t l t' h
    norm_num

end PyCNC.Props
