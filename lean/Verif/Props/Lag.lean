import Verif.Lemmas.Lag
import Verif.Lemmas.Pins
import Verif.Props.Dma
import Verif.Props.Linear

/-!
# Property C81: how late the motors are

`Plays` (see C44) tells which pulses the engine sends and at which times `Ts` they start; `Stamps` are
the times at which the generator wants them, in whole microseconds.  Times count from the start of
the engine.
-/

namespace PyCNC.Props

open PyCNC Spec

/-- **C81.** The pulses of a finished `move` start later than planned by exactly the sum of all
overlaps so far: what the planned time of a pulse is before the planned end of the one before it is
added to the lag of all following pulses.  In any arithmetic.  (That no pulse is late by more than the
length of a pulse is false, see `C81_refuted`.) -/
theorem C81_lag_partial {F : Type} [PyNum F] (c : Cfg) (p : Pins) (b : Buf) (env : MoveEnv) (fuel : Nat)
    (evs : List (Event F)) (re : RunEnd) (mem : Nat → Word) (s : MoveSt) (g : GpioHw)
    (ks : List Int) (hb : BufOk b) (hp : PinsOk p) (hlen : c.pulseLenUs < 2 ^ 26)
    (hks : Stamps evs ks) (hgap : ShortGaps c.pulseLenUs 0 ks)
    (h : Hal.move c p b env fuel evs re mem = (s, .done)) :
    ∃ n w Ts, Dma.run b n b.base ⟨s.dma.mem, g, [], 0⟩ = (w, 0) ∧
      Plays p c.pulseLenUs 0 evs (edges w.log.reverse) Ts ∧
      Ts.map (fun T : Nat => (T : Int)) =
        List.zipWith (· + ·) ks (lags c.pulseLenUs 0 0 ks) := by
  obtain ⟨d, hh, hne, hs, -, ht⟩ := Hal.move_ok h
  have hr := run_program (bufOk_ok hb) hh hne ⟨s.dma.mem, g, [], 0⟩ (by rw [hs])
  obtain ⟨Ts, hT, hT2⟩ := plays_lags (c := c) hp hlen evs ht 0 0
  refine ⟨_, _, Ts, hr, ?_, by simpa using hT2 ks hks hgap⟩
  rw [foldl_log]
  simpa using hT

/-- Three pulses, planned for 100, 101 and 200 µs, of 2 µs each: the second is 1 µs late, and so is the
third. -/
example : lags 2 0 0 [100, 101, 200] = [0, 1, 1] := by decide

/-- **C81** for moves with any number of motors: the `i`-th pulse of a straight move (counting from
zero) starts at most `i` lengths of a pulse late. -/
theorem C81_moves_partial [PyRound] {c : Cfg} {p : Pins} {b : Buf} {env : MoveEnv} {fuel : Nat}
    {delta : V4 ℝ} {v : ℝ} (hc : SaneCfg c) (hppm : ∀ ax, 10 ≤ c.ppm.get ax) (hm : OrdinaryMove delta v)
    {lg : LinearGen ℝ} (hg : LinearGen.new c delta v = .ok lg) {evs : List (Event ℝ)}
    (he : Emits c (.linear lg) evs) {mem : Nat → Word} {s : MoveSt} (g : GpioHw) (hb : BufOk b)
    (hp : PinsOk p) (hlen : c.pulseLenUs < 2 ^ 26)
    (h : Hal.move c p b env fuel evs .done mem = (s, .done)) :
    ∃ n w Ts ks, Dma.run b n b.base ⟨s.dma.mem, g, [], 0⟩ = (w, 0) ∧
      Plays p c.pulseLenUs 0 evs (edges w.log.reverse) Ts ∧ Stamps evs ks ∧
      Ts.length = ks.length ∧
      ∀ (i T : ℕ) (k : Int), Ts[i]? = some T → ks[i]? = some k → k ≤ T ∧ T ≤ k + c.pulseLenUs * i := by
  obtain ⟨r, ks, h2, -, h4, h5, -⟩ := linear_stream hc hm hppm hg
  cases emits_unique he h2
  obtain ⟨n, w, Ts, a1, a2, a3⟩ := C81_lag_partial c p b env fuel _ .done mem s g ks hb hp hlen h4 h5 h
  obtain ⟨o1, o2, -, o4⟩ := C29_ordered hc hm hg he
  obtain ⟨τs, t1, ⟨-, t2⟩, t3⟩ := stamps_times h4
  have hsort : ks.Pairwise (· ≤ ·) := by
    rw [t1, List.pairwise_map]
    exact (t3 o2).imp fun h => stamp_mono h
  have hnn : ∀ k ∈ ks, 0 ≤ k := by
    intro k hk
    rw [t1, List.mem_map] at hk
    obtain ⟨τ, hτ, rfl⟩ := hk
    obtain ⟨ev, e1, e2⟩ := t2 τ hτ
    cases ev with
    | dir d => exact e2.elim
    | pulse x =>
      obtain ⟨ax, hax⟩ := e2.1
      have : 0 ≤ τ := (o4 ax τ (event_stepTimes e1 hax)).1
      have h0 : stamp 0 = 0 := by unfold stamp; rw [zero_mul, rnd_zero]
      rw [← h0]
      exact stamp_mono this
  have hlen' : Ts.length = ks.length := by
    have := congrArg List.length a3
    rw [List.length_map, List.length_zipWith, lags_length] at this
    omega
  refine ⟨n, w, Ts, ks, a1, a2, h4, hlen', fun i T k hT hk => ?_⟩
  obtain ⟨l1, e1⟩ := List.getElem?_eq_some_iff.1 hT
  obtain ⟨l2, e2⟩ := List.getElem?_eq_some_iff.1 hk
  have l3 : i < (lags c.pulseLenUs 0 0 ks).length := by rw [lags_length]; exact l2
  have e3 : (T : Int) = k + (lags c.pulseLenUs 0 0 ks)[i] := by
    have := congrArg (fun l => l[i]?) a3
    simp only [List.getElem?_map, hT, List.getElem?_zipWith, hk, List.getElem?_eq_getElem l3,
      Option.map_some, Option.some.injEq] at this
    exact this
  have h6 := lags_nonneg le_rfl _ (List.getElem_mem l3)
  have h7 := lags_le (len := c.pulseLenUs) (by omega) hnn hsort (List.getElem?_eq_getElem l3)
  omega

/-- The move of `C81_refuted`, where all other hypotheses are shown. -/
example : SaneCfg Cfg.default ∧ (∀ ax, 10 ≤ Cfg.default.ppm.get ax) ∧
    OrdinaryMove ⟨406 / 10, 4059 / 100, 0, 0⟩ (34446 / 10) :=
  ⟨default_sane true, fun ax => by cases ax <;> norm_num [Cfg.default, V4.get], steep_ordinary⟩

/-- The pulses of one motor are as far apart as its maximum velocity says. -/
theorem single_spaced [PyRound] {c : Cfg} {delta : V4 ℝ} {v : ℝ} (hc : SaneCfg c)
    (hd : DecimalLimits c) (ha : c.autoVel = true) (hm : OrdinaryMove delta v) {ax : Axis}
    (hs : ∀ ax', ax' ≠ ax → delta.get ax' = 0)
    (hfast : (c.pulseLenUs + 1) / 1000000 ≤ 1 / ((c.ppm.get ax : ℝ) * ((c.maxVel.get ax : ℝ) / 60)))
    {lg : LinearGen ℝ} (hg : LinearGen.new c delta v = .ok lg) {evs : List (Event ℝ)}
    (he : Emits c (.linear lg) evs) {ks : List Int} (h4 : Stamps evs ks) :
    Spaced c.pulseLenUs 0 ks := by
  obtain ⟨-, -, o3, o4⟩ := C29_ordered hc hm hg he
  have hz : ∀ ax', ax' ≠ ax → stepTimes ax' evs = [] := by
    intro ax' hne
    obtain ⟨lg', evs', g1, g2, -, g4, -⟩ := C28_linear_pulses hc hm
    rw [hg] at g1
    cases g1
    cases emits_unique he g2
    have := g4 ax'
    rw [hs ax' hne, abs_zero, zero_mul, rnd_zero] at this
    exact List.length_eq_zero_iff.1 (by unfold steps at this; exact_mod_cast this)
  have hrate := C30_step_rate hc hd ha hm hg he ax
  rw [stamps_single h4 hz]
  refine spaced_map (fun τ hτ => ?_) ?_
  · have h0 : stamp 0 = 0 := by unfold stamp; rw [zero_mul, rnd_zero]
    rw [← h0]
    exact stamp_mono (o4 ax τ hτ).1
  · rw [List.pairwise_iff_getElem]
    intro i j hi hj hij
    have h6 := hrate i _ _ (List.getElem?_eq_getElem hi)
      (List.getElem?_eq_getElem (show i + 1 < _ by omega))
    have h7 : (stepTimes ax evs)[i + 1] ≤
        (stepTimes ax evs)[j] := by
      rcases Nat.lt_or_ge (i + 1) j with h | h
      · exact (List.pairwise_iff_getElem.1 (o3 ax) _ _ _ _ h).le
      · have : i + 1 = j := by omega
        subst this
        exact le_rfl
    linarith

/-- **C81** for moves of one motor: if the axis at its maximum velocity leaves a microsecond between two
pulses, every pulse starts exactly at its time in whole microseconds. -/
theorem C81_single_partial [PyRound] {c : Cfg} {p : Pins} {b : Buf} {env : MoveEnv} {fuel : Nat}
    {delta : V4 ℝ} {v : ℝ} (hc : SaneCfg c) (hd : DecimalLimits c) (ha : c.autoVel = true)
    (hppm : ∀ ax, 10 ≤ c.ppm.get ax) (hm : OrdinaryMove delta v) {ax : Axis}
    (hs : ∀ ax', ax' ≠ ax → delta.get ax' = 0)
    (hfast : (c.pulseLenUs + 1) / 1000000 ≤ 1 / ((c.ppm.get ax : ℝ) * ((c.maxVel.get ax : ℝ) / 60)))
    {lg : LinearGen ℝ} (hg : LinearGen.new c delta v = .ok lg) {evs : List (Event ℝ)}
    (he : Emits c (.linear lg) evs) {mem : Nat → Word} {s : MoveSt} (g : GpioHw) (hb : BufOk b)
    (hp : PinsOk p) (hlen : c.pulseLenUs < 2 ^ 26)
    (h : Hal.move c p b env fuel evs .done mem = (s, .done)) :
    ∃ n w Ts ks, Dma.run b n b.base ⟨s.dma.mem, g, [], 0⟩ = (w, 0) ∧
      Plays p c.pulseLenUs 0 evs (edges w.log.reverse) Ts ∧ Stamps evs ks ∧
      Ts.map (fun T : Nat => (T : Int)) = ks := by
  obtain ⟨r, ks, h2, -, h4, h5, -⟩ := linear_stream hc hm hppm hg
  cases emits_unique he h2
  obtain ⟨n, w, Ts, a1, a2, a3⟩ := C81_lag_partial c p b env fuel _ .done mem s g ks hb hp hlen h4 h5 h
  refine ⟨n, w, Ts, ks, a1, a2, h4, ?_⟩
  rw [a3]
  exact lags_spaced (single_spaced hc hd ha hm hs hfast hg he h4)

/-- All axes of the default configuration leave this microsecond. -/
example : ∀ ax, (Cfg.default.pulseLenUs + 1) / 1000000 ≤
    1 / ((Cfg.default.ppm.get ax : ℝ) * ((Cfg.default.maxVel.get ax : ℝ) / 60)) := by
  intro ax
  cases ax <;> norm_num [Cfg.default, V4.get]

/-- **C81 is false**: in the move X40.6 Y40.59 at F3444.6 both motors step at nearly the same times.  A
pulse starts 9 µs late, more than four times the length of a pulse (2 µs), and no later one makes up for
it. -/
theorem C81_refuted [PyRound] (g : GpioHw) (mem : Nat → Word) :
    ∃ (lg : LinearGen ℝ) (evs : List (Event ℝ)) (s : MoveSt) (ks : List Int) (n : ℕ) (w : World)
      (Ts : List ℕ),
      LinearGen.new Cfg.default ⟨406 / 10, 4059 / 100, 0, 0⟩ (34446 / 10) = .ok lg ∧
      Emits Cfg.default (.linear lg) evs ∧ Stamps evs ks ∧ Cfg.default.pulseLenUs = 2 ∧
      Hal.move Cfg.default Pins.default exBuf exEnv 1 evs .done mem = (s, .done) ∧
      Dma.run exBuf n exBuf.base ⟨s.dma.mem, g, [], 0⟩ = (w, 0) ∧
      Plays Pins.default 2 0 evs (edges w.log.reverse) Ts ∧
      ∃ (i T : ℕ) (k : Int), Ts[i]? = some T ∧ ks[i]? = some k ∧ k + 9 ≤ T ∧
        ∀ (j T' : ℕ) (k' : Int), i ≤ j → Ts[j]? = some T' → ks[j]? = some k' → k' + 9 ≤ T' := by
  obtain ⟨lg, h1, h2, h3, h4, h5, h6⟩ := steep_new
  have hsane := default_sane true
  have hppm : ∀ ax, 10 ≤ Cfg.default.ppm.get ax := fun ax => by cases ax <;> norm_num [Cfg.default, V4.get]
  obtain ⟨evs, s, he, hs⟩ := linear_ends (c := Cfg.default) (env := exEnv) (fuel := 1) (N := 0)
    (B := fun _ => 4060) hsane hppm exBuf_ok exPins_ok (by decide) (fun _ _ => rfl) le_rfl (by omega)
    steep_ordinary h1 h6 (by norm_num) mem
  obtain ⟨r, ks, e2, -, e4, e5, -⟩ := linear_stream hsane steep_ordinary hppm h1
  cases emits_unique he e2
  obtain ⟨n, w, Ts, a1, a2, a3⟩ := C81_lag_partial Cfg.default Pins.default exBuf exEnv 1 _ .done mem s g
    ks exBuf_ok exPins_ok (by decide) e4 e5 hs
  refine ⟨lg, _, s, ks, n, w, Ts, h1, he, e4, rfl, hs, a1, a2, ?_⟩
  obtain ⟨o1, o2, -, -⟩ := C29_ordered hsane steep_ordinary h1 he
  obtain ⟨τs, t1, ⟨t2, -⟩, t3⟩ := stamps_times e4
  have hmem : ∀ ax τ, τ ∈ stepTimes ax (Event.dir (invertDirs Cfg.default lg.dir) :: r) → τ ∈ τs := by
    intro ax τ hτ
    obtain ⟨t, b1, b2⟩ := stepTimes_event hτ
    obtain ⟨σ, hσ⟩ := o1 _ b1 (by simp [IsDir])
    have := hσ.2 ax τ b2
    rw [this]
    exact t2 _ b1 σ hσ
  have hlf := linear_facts (c := Cfg.default) hsane steep_ordinary h1
  obtain ⟨r', he', _, _, _, hti, _⟩ := good_emits hlf.good
  cases emits_unique he he'
  have hx : ∀ i : ℕ, i ≤ 9 → √((i : ℝ) / 150000) ∈ τs := fun i hi => by
    refine hmem .x _ ?_
    change _ ∈ stepTimes .x r
    rw [hti, h4, List.mem_map]
    exact ⟨i, by rw [List.mem_range]; omega, (steep_at h2 h3 (by omega)).1⟩
  have hy : ∀ i : ℕ, i ≤ 9 → √((i : ℝ) * 4060 / (4059 * 150000)) ∈ τs := fun i hi => by
    refine hmem .y _ ?_
    change _ ∈ stepTimes .y r
    rw [hti, h5, List.mem_map]
    exact ⟨i, by rw [List.mem_range]; omega, (steep_at h2 h3 (by omega)).2⟩
  obtain ⟨i, x, i1, i2, i3⟩ := steep_lag (t3 o2) hx hy (m := 9) le_rfl
  rw [← t1] at i2
  have key : ∀ (j T' : ℕ) (k' : Int), Ts[j]? = some T' → ks[j]? = some k' →
      ∃ y, (lags (2 : ℕ) 0 0 ks)[j]? = some y ∧ (T' : Int) = k' + y := by
    intro j T' k' hT hk
    obtain ⟨l2, -⟩ := List.getElem?_eq_some_iff.1 hk
    have l3 : j < (lags (2 : ℕ) 0 0 ks).length := by rw [lags_length]; exact l2
    refine ⟨_, List.getElem?_eq_getElem l3, ?_⟩
    have := congrArg (fun l => l[j]?) a3
    simp only [List.getElem?_map, hT, List.getElem?_zipWith, hk, Option.map_some] at this
    rw [show ((Cfg.default.pulseLenUs : ℕ) : ℤ) = (2 : ℕ) from rfl, List.getElem?_eq_getElem l3] at this
    simpa using this
  obtain ⟨l1, -⟩ := List.getElem?_eq_some_iff.1 i2
  have l2 : i < ks.length := by rwa [lags_length] at l1
  have hlen' : Ts.length = ks.length := by
    have := congrArg List.length a3
    rw [List.length_map, List.length_zipWith, lags_length] at this
    omega
  have late : ∀ (j T' : ℕ) (k' : Int), i ≤ j → Ts[j]? = some T' → ks[j]? = some k' → k' + 9 ≤ T' := by
    intro j T' k' hij hT hk
    obtain ⟨y, hy, e⟩ := key j T' k' hT hk
    obtain ⟨m1, n1⟩ := List.getElem?_eq_some_iff.1 hy
    obtain ⟨m2, n2⟩ := List.getElem?_eq_some_iff.1 i2
    have : x ≤ y := by
      rcases Nat.lt_or_ge i j with h | h
      · have := List.pairwise_iff_getElem.1 (lags_mono (len := (2 : ℕ)) ks 0 0) i j m2 m1 h
        rwa [n1, n2] at this
      · obtain rfl : i = j := by omega
        rw [n1] at n2
        omega
    push_cast at i3
    omega
  exact ⟨i, _, _, List.getElem?_eq_getElem (by omega), List.getElem?_eq_getElem l2,
    late i _ _ le_rfl (List.getElem?_eq_getElem (by omega)) (List.getElem?_eq_getElem l2), late⟩

end PyCNC.Props
