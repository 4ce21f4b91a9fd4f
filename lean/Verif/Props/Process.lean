import Verif.Lemmas.Process
import Verif.Props.DmaProto
import Verif.Props.Main

/-!
# Property C74: the memory of the DMA engines, from the start to the end of the process
-/

namespace PyCNC.Props

open PyCNC Spec Proc

variable {env : VcEnv}

/-- The firmware with handles and addresses counted up, for the examples. -/
def someFirmware : VcEnv where
  alloc vc _ := (vc.held.map (·.1)).foldr max 0 + 1
  lock vc h := if h ≤ 3 ∧ vc.locked.length < 3 ∧ (∀ e ∈ vc.held, e.2 ≤ 0x2000000) ∧
      (∀ e ∈ vc.locked, e.2 = 0xC0000000 + 0x2000000 * e.1 ∧ e.1 ≤ 3)
    then 0xC0000000 + 0x2000000 * h else 0

theorem someFirmware_ok : FirmwareOk someFirmware := by
  have hmax : ∀ (l : List Nat) x, x ∈ l → x ≤ l.foldr max 0 := by
    intro l
    induction l with
    | nil => exact fun _ h => absurd h (List.not_mem_nil)
    | cons a l ih =>
      intro x hx
      rcases List.mem_cons.1 hx with rfl | hx
      · exact le_max_left _ _
      · exact (ih x hx).trans (le_max_right _ _)
  refine ⟨fun vc n _ h => ?_, fun vc h n hn h0 => ?_⟩
  · have := hmax _ _ h
    simp only [someFirmware] at this
    omega
  · simp only [someFirmware] at h0 ⊢
    split_ifs at h0 ⊢ with hc
    · obtain ⟨h1, h2, h3, h4⟩ := hc
      have hsz := h3 _ hn
      simp only at hsz
      refine ⟨⟨by simp only; omega, by simp only; omega, Or.inr (by simp only; omega)⟩, by omega,
        fun h' bus' n' hne hl hh => ?_⟩
      obtain ⟨h5, h6⟩ := h4 _ hl
      have h7 := h3 _ hh
      simp only at h5 h6 h7
      simp only [Apart]
      omega
    · exact absurd rfl h0

/-- A process that has created nothing. -/
def newProc : Proc := ⟨⟨[], []⟩, [], 0, []⟩

theorem newProc_tidy : ProcTidy newProc :=
  ⟨fun _ h => absurd h (List.not_mem_nil), fun _ h => absurd h (List.not_mem_nil)⟩

/-- The process that has imported `hal` from there. -/
theorem newProc_import : ∃ o s, newProc.importHal someFirmware = (.ok o, s) := ⟨_, _, rfl⟩

/-- **C74, memory.** Whatever the firmware decides: if the import of `hal` succeeds, the three objects
have memory that is locked, starts at a page, is as large as their control blocks need, does not
overlap, and was not in use before. -/
theorem C74_memory (hf : FirmwareOk env) {s s' : Proc} (ht : ProcTidy s) {o : Objs}
    (hi : s.importHal env = (.ok o, s')) :
    (∀ e ∈ channels o, BufOk e.2.buf ∧ 4096 ∣ e.2.buf.base ∧
      (e.2.handle, e.2.buf.size) ∈ s'.vc.held ∧ (e.2.handle, e.2.buf.base) ∈ s'.vc.locked ∧
      ¬ InUse s.vc e.2.handle) ∧
    o.dma.buf.size = 31457280 ∧ 8192 ≤ o.pwm.buf.size ∧ 65536 ≤ o.dog.buf.size ∧
    Apart o.dma.buf o.pwm.buf ∧ Apart o.dma.buf o.dog.buf ∧ Apart o.pwm.buf o.dog.buf := by
  rcases import_cases hf ht with ⟨o', s1, h1, hm⟩ | ⟨s1, h1, -⟩
  · rw [h1] at hi
    cases hi
    obtain ⟨h2, h3, h4⟩ := hm.sizes
    refine ⟨hm.good, h2, by rw [h3]; decide, by rw [h4]; decide, hm.apart⟩
  · rw [h1] at hi
    cases hi

example : FirmwareOk someFirmware ∧ ProcTidy newProc ∧
    ∃ o s, newProc.importHal someFirmware = (.ok o, s) :=
  ⟨someFirmware_ok, newProc_tidy, newProc_import⟩

/-- **C74, partial.** The functions registered with `atexit` give everything back: if the import
succeeds, or if it fails although memory can always be locked, the firmware has in use what it had
before, and no mapping is left.  Missing: memory that cannot be locked (`C74_lock_refuted`). -/
theorem C74_given_back_partial (hf : FirmwareOk env) {s : Proc} (ht : ProcTidy s) (h0 : s.hooks = [])
    (h : (∀ vc h, env.lock vc h ≠ 0) ∨ ∃ o, (s.importHal env).1 = .ok o) :
    let s' := (s.importHal env).2
    let e := exitAll env (s'.hooks.length + 1) { s' with hooks := .history :: s'.hooks }
    e.vc = s.vc ∧ e.maps = s.maps ∧ e.hooks = [] := by
  have key : Undoes env s (s.importHal env).2 := by
    rcases import_cases hf ht with ⟨o', s1, h1, hm⟩ | ⟨s1, h1, hu⟩
    · rw [h1]; exact hm.undoes
    · rw [h1]
      rcases h with h | ⟨o, h⟩
      · exact hu h
      · rw [h1] at h; cases h
  obtain ⟨-, h2⟩ := key
  rw [h0, List.length_nil, Nat.sub_zero] at h2
  intro s' e
  have he : e = exitAll env s'.hooks.length s' := rfl
  rw [he, h2]
  exact ⟨rfl, rfl, rfl⟩

/-- What the process above holds, and holds no more in the end. -/
example : (newProc.importHal someFirmware).2.vc.held = [(3, 65536), (2, 8192), (1, 31457280)] ∧
    (newProc.importHal someFirmware).2.maps.length = 10 ∧
    (newProc.importHal someFirmware).2.hooks.length = 13 := by
  decide +kernel

/-- **C74 is false of the code** when memory cannot be locked: the exception leaves `__init__` before
`free` is registered, and the comment in `rpgpio_private.py:169` speaks of a `__del__` that does not
exist.  30 megabytes are lost until the next start of the computer. -/
theorem C74_lock_refuted : ∃ env : VcEnv, FirmwareOk env ∧ ∃ s', newProc.importHal env = (.error .io, s') ∧
    ∀ n, (exitAll env n { s' with hooks := .history :: s'.hooks }).vc.held = [(1, 31457280)] := by
  refine ⟨{ someFirmware with lock := fun _ _ => 0 }, ⟨someFirmware_ok.fresh, fun _ _ _ _ h =>
    absurd rfl h⟩, _, rfl, fun n => ?_⟩
  rcases n with _ | _ | n
  · rfl
  · rfl
  · have : ∀ (env : VcEnv) n (s : Proc), s.hooks = [] → exitAll env n s = s := by
      intro env n
      induction n with
      | zero => exact fun _ _ => rfl
      | succ n ih =>
        intro s hs
        have : s.exitStep env = s := by simp only [exitStep, hs]
        rw [exitAll, this, ih s hs]
    rcases n with _ | n
    · rfl
    · rw [show n + 1 + 1 + 1 = 2 + (n + 1) by omega, exitAll_add]
      rw [this _ _ _ rfl]
      rfl

/-- **C74, partial.** After `deinit` no channel executes control blocks in memory that was given back,
at no moment of the end of the process, whatever the engines do meanwhile and however often the
thread of the watchdog still feeds it.  Missing: the ends of the process without `deinit`
(`C74_eof_refuted`). -/
theorem C74_quit_partial {act : Nat → Moment} {pins : Bool} {b s' : DmaBus} {o : Objs}
    (h14 : pins = false → (b.hw 14).active = false) (hd : deinitChannels act pins b = some s')
    {s s1 : Proc} {hw : DmaHw} (hl : Leaving env o (s, s'.hw) (s1, hw)) :
    (∀ e ∈ channels o, (hw e.1).active = false) ∧ ¬ Dangling o s1.vc hw := by
  have key : ∀ e ∈ channels o, (hw e.1).active = false := by
    intro e he
    refine leaving_idle hl (ch := e.1) ?_
    show (s'.hw e.1).active = false
    unfold deinitChannels at hd
    rcases ha : DmaProto.isActive act gpioChannel b with ⟨a, b1⟩
    have hq := C73_ask (act := act) (ch := 4) (b := ⟨0, 0⟩) (s := b)
    rw [show DmaProto.isActive act 4 b = (a, b1) from ha] at hq
    obtain ⟨q1, q2, -⟩ := hq
    simp only at q1 q2
    simp only [ha] at hd
    cases a with
    | true => simp at hd
    | false =>
      have h4 : (b1.hw 4).active = false := by rw [q2]; exact q1.symm
      simp only [Bool.false_eq_true, if_false, Option.some.injEq] at hd
      have stop_keeps : ∀ (ch i : Nat) (x : DmaBus), (x.hw i).active = false →
          ((DmaProto.stopDma act ch x).hw i).active = false := by
        intro ch i x hx
        by_cases hi : i = ch
        · subst hi
          rw [DmaProto.stop_same]
          rfl
        · rw [DmaProto.stop_other act hi, passed_idle act _ _ _ hx]
          exact hx
      -- the channel of the PWM
      have h14' : ∀ x : DmaBus, x = (if pins then
          let (on, s) := DmaProto.isActive act pwmChannel b1
          if on then DmaProto.stopDma act pwmChannel s else s else b1) →
          (x.hw 4).active = false ∧ (x.hw 14).active = false := by
        intro x hx
        cases hp : pins with
        | false =>
          rw [hp] at hx
          simp only [Bool.false_eq_true, if_false] at hx
          subst hx
          refine ⟨h4, ?_⟩
          rw [q2, passed_idle act _ _ _ (h14 hp)]
          exact h14 hp
        | true =>
          rw [hp] at hx
          simp only [if_true] at hx
          have hq := C73_ask (act := act) (ch := 14) (b := ⟨0, 0⟩) (s := b1)
          rcases hb : DmaProto.isActive act pwmChannel b1 with ⟨on, b2⟩
          rw [show DmaProto.isActive act 14 b1 = (on, b2) from hb] at hq
          obtain ⟨r1, r2, -⟩ := hq
          simp only at r1 r2
          rw [hb] at hx
          simp only at hx
          have h4' : (b2.hw 4).active = false := by
            rw [r2, passed_idle act _ _ _ h4]; exact h4
          cases on with
          | true =>
            simp only [if_true] at hx
            subst hx
            exact ⟨stop_keeps _ _ _ h4', by rw [DmaProto.stop_same]; rfl⟩
          | false =>
            simp only [Bool.false_eq_true, if_false] at hx
            subst hx
            exact ⟨h4', by rw [r2]; exact r1.symm⟩
      obtain ⟨h5, h6⟩ := h14' _ rfl
      rw [← hd]
      simp only [channels, List.mem_cons, List.not_mem_nil, or_false] at he
      rcases he with rfl | rfl | rfl
      · exact stop_keeps _ _ _ h5
      · exact stop_keeps _ _ _ h6
      · show ((DmaProto.stopDma act 13 _).hw 13).active = false
        rw [DmaProto.stop_same]; rfl
  refine ⟨key, ?_⟩
  rintro ⟨e, he, h1, -⟩
  rw [key e he] at h1
  cases h1

/-- `deinit` with a running watchdog and a running PWM. -/
example : ∃ (act : Nat → Moment) (b s' : DmaBus), (b.hw 14).active = true ∧ (b.hw 13).active = true ∧
    deinitChannels act true b = some s' :=
  ⟨fun _ => ⟨[], fun a => a⟩, ⟨fun i => if i = 4 then ⟨0#32, 0#32, 0#32, false⟩ else
    ⟨1#32, 0xC0000000#32, 0xC0000020#32, true⟩, 0⟩, _, by decide, by decide, rfl⟩

/-! ### Without `deinit` -/

theorem zero_exec {b : Buf} {w : World} (h : w.mem = fun _ => 0#32) (a : Nat) :
    (Dma.execBlock b a w).1 = w := by
  have hr : ∀ x, Dma.busRead b w x = 0#32 := by
    intro x
    unfold Dma.busRead
    split
    · rw [h]
    · rfl
  unfold Dma.execBlock
  simp only [hr]
  rfl

theorem zero_run {b : Buf} : ∀ (evs : List DogEv) (s : DogSys), (s.w.mem = fun _ => 0#32) →
    (dogRun b s evs).w = s.w
  | [], _, _ => rfl
  | e :: evs, s, h => by
    have h1 : (dogDo b s e).w = s.w := by
      cases e with
      | tick =>
        simp only [dogDo]
        split
        · exact zero_exec h _
        · rfl
      | feed => rfl
      | other ch c =>
        simp only [dogDo]
        split <;> rfl
    show (dogRun b (dogDo b s e) evs).w = s.w
    rw [zero_run evs _ (by rw [h1]; exact h), h1]

theorem exit_frees (hf : FirmwareOk env) {s s' : Proc} (ht : ProcTidy s) (h0 : s.hooks = []) {o : Objs}
    (hi : s.importHal env = (.ok o, s')) {e : Nat × Cma} (he : e ∈ channels o) :
    ¬ InUse (exitAll env (s'.hooks.length + 1) { s' with hooks := .history :: s'.hooks }).vc
      e.2.handle := by
  have h1 := (C74_given_back_partial hf ht h0 (Or.inr ⟨o, by rw [hi]⟩)).1
  rw [hi] at h1
  simp only at h1
  rw [h1]
  exact (((C74_memory hf ht hi).1 e he).2.2.2.2)

theorem leaving_hooks (env : VcEnv) (o : Objs) (hw : DmaHw) : ∀ (n : Nat) (s : Proc),
    Leaving env o (s, hw) (exitAll env n s, hw)
  | 0, _ => .now
  | n + 1, s => by
    have h := leaving_hooks env o hw n (s.exitStep env)
    have : ∀ {x y : Proc × DmaHw}, Leaving env o x y → ∀ s hw, x = (s.exitStep env, hw) →
        Leaving env o (s, hw) y := by
      intro x y h
      induction h with
      | now => rintro s hw rfl; exact .hook .now
      | hook _ ih => exact fun s hw hx => .hook (ih s hw hx)
      | engine l _ ih => exact fun s hw hx => .engine l (ih s hw hx)
      | feed act n _ ih => exact fun s hw hx => .feed act n (ih s hw hx)
    exact this h s hw rfl

/-- **C74 is false of the code** when the process ends without `deinit`.  The session `M3S1000`, end of
the input: nothing stops the watchdog, which the thread has kept fed (`evs`); `atexit` gives its memory
back while its channel executes control blocks there.  If the next owner of the memory clears it, the
watchdog will never switch the pins off: they stay as they are, with the spindle on, for ever. -/
theorem C74_eof_refuted [PyText] [PyRound] (menv : Env ℝ) (hf : FirmwareOk env) {s s' : Proc}
    (ht : ProcTidy s) (h0 : s.hooks = []) {o : Objs} (hi : s.importHal env = (.ok o, s'))
    {d d' : DogSys} (hd : ChIdle (d.hw 13)) (hst : dogStart o.dog.buf d = .ok d') :
    (∃ m, mainLoop Cfg.default menv [.line "M3S1000".toList, .eof] (MState.init Cfg.default) =
        ⟨[.ok none], m, .eof⟩ ∧ m.trace = [.spindle 10, .join, .watchdog, .init]) ∧
    ∀ evs, FedWithin 2047 (dogEvents evs) →
      (∃ s1, Leaving env o ({ s' with hooks := .history :: s'.hooks }, (dogRun o.dog.buf d' evs).hw)
          (s1, (dogRun o.dog.buf d' evs).hw) ∧ s1.hooks = [] ∧
        Dangling o s1.vc (dogRun o.dog.buf d' evs).hw) ∧
      ∀ later, (dogRun o.dog.buf ⟨{ (dogRun o.dog.buf d' evs).w with mem := fun _ => 0#32 },
        (dogRun o.dog.buf d' evs).hw⟩ later).w.gpio = d.w.gpio := by
  obtain ⟨m, -, h1, h2⟩ := C56_refuted menv
  refine ⟨⟨m, h1 [], h2⟩, fun evs hfed => ?_⟩
  have hmem := C74_memory hf ht hi
  have hg := hmem.1 (13, o.dog) (by simp [channels])
  have ha : 32 ∣ o.dog.buf.base := Dvd.dvd.trans (by decide) hg.2.1
  have hw := C73_watchdog hg.1 ha hd hst
  obtain ⟨t, ht1, ht2⟩ := hw
  have hfd := C51_fed hg.1 hmem.2.2.2.1 ht1 _ hfed
  refine ⟨⟨_, leaving_hooks env o _ (s'.hooks.length + 1) _, ?_, (13, o.dog), by simp [channels], ?_,
    exit_frees hf ht h0 hi (by simp [channels])⟩, fun later => ?_⟩
  · have := (C74_given_back_partial hf ht h0 (Or.inr ⟨o, by rw [hi]⟩)).2.2
    rw [hi] at this
    exact this
  · exact (ht2 evs).2.trans hfd.2.2
  · rw [zero_run later _ rfl]
    show (dogRun o.dog.buf d' evs).w.gpio = d.w.gpio
    rw [(ht2 evs).1]
    exact hfd.1

/-- Such a process, watchdog and history of feeding. -/
example : ∃ o s' d', newProc.importHal someFirmware = (.ok o, s') ∧
    dogStart o.dog.buf ⟨wdWorld, resetHw⟩ = .ok d' ∧
    FedWithin 2047 (dogEvents [.tick, .feed, .tick]) := by
  obtain ⟨o, s', hi⟩ := newProc_import
  have hmem := C74_memory someFirmware_ok newProc_tidy hi
  have hg := hmem.1 (13, o.dog) (by simp [channels])
  obtain ⟨t, ht⟩ := Wd.start_succeeds hg.1 hmem.2.2.2.1 wdWorld
  obtain ⟨d', hd⟩ := (dogStart_rel (s := ⟨wdWorld, resetHw⟩) (by have := hg.1.top; omega) hg.1.pos
    (Dvd.dvd.trans (by decide) hg.2.1) ⟨rfl, rfl⟩).1 t ht
  refine ⟨o, s', d', hi, hd, fun l hl _ => ?_⟩
  have := hl.length_le
  simp only [dogEvents, List.length_cons, List.length_nil] at this
  omega

end PyCNC.Props
