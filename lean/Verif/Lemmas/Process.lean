import Verif.Spec.Process
import Verif.Lemmas.DmaProto

/-!
# The memory of the DMA engines
-/

namespace PyCNC

open Spec

/-- A size rounded up to whole pages. -/
def pages (n : Nat) : Nat := (n + 4095) / 4096 * 4096

namespace Proc

variable {env : VcEnv}

/-! ### The messages -/

theorem send_alloc (n a f : Nat) (s : Proc) :
    s.sendData env 0x3000c [n, a, f] = (env.alloc s.vc n,
      { s with vc := if env.alloc s.vc n = 0 then s.vc
          else { s.vc with held := (env.alloc s.vc n, n) :: s.vc.held } }) := by
  simp [sendData, Vc.property]

theorem send_lock (h : Nat) (s : Proc) (hh : h ∈ s.vc.held.map (·.1)) :
    s.sendData env 0x3000d [h] = (env.lock s.vc h,
      { s with vc := if env.lock s.vc h = 0 then s.vc
          else { s.vc with locked := (h, env.lock s.vc h) :: s.vc.locked } }) := by
  have hh' : (s.vc.held.map (·.1)).contains h = true := List.contains_iff_mem.2 hh
  simp only [sendData, Vc.property, List.cons_append, List.nil_append,
    show ∀ a b c d e f g : Nat, [a, b, c, d, e, f, g].getD 5 0 = f from fun _ _ _ _ _ _ _ => rfl, hh']
  simp

theorem send_unlock (h : Nat) (s : Proc) :
    (s.sendData env 0x3000e [h]).2 =
      { s with vc := { s.vc with locked := s.vc.locked.filter (·.1 ≠ h) } } := by
  simp [sendData, Vc.property]

theorem send_free (h : Nat) (s : Proc) (hh : h ∉ s.vc.locked.map (·.1)) :
    (s.sendData env 0x3000f [h]).2 =
      { s with vc := { s.vc with held := s.vc.held.filter (·.1 ≠ h) } } := by
  have hh' : (s.vc.locked.map (·.1)).contains h = false := by
    rw [Bool.eq_false_iff]
    exact fun h' => hh (List.contains_iff_mem.1 h')
  simp only [sendData, Vc.property, List.cons_append, List.nil_append,
    show ∀ a b c d e f g : Nat, [a, b, c, d, e, f, g].getD 5 0 = f from fun _ _ _ _ _ _ _ => rfl, hh']
  simp

theorem free_eq (h : Nat) (s : Proc) : s.free env h =
    { s with vc := ⟨s.vc.held.filter (·.1 ≠ h), s.vc.locked.filter (·.1 ≠ h)⟩ } := by
  unfold free
  rw [send_unlock, send_free]
  simp

theorem filter_fresh {l : List (Nat × Nat)} {h : Nat} (hh : h ∉ l.map (·.1)) :
    l.filter (·.1 ≠ h) = l := by
  rw [List.filter_eq_self]
  intro e he
  simp only [ne_eq, decide_not, Bool.not_eq_true', decide_eq_false_iff_not]
  rintro rfl
  exact hh (List.mem_map_of_mem he)

/-! ### One object -/

/-- The state after a `CMAPhysicalMemory` was created. -/
def withCma (m : Cma) (s : Proc) : Proc :=
  ⟨⟨(m.handle, m.buf.size) :: s.vc.held, (m.handle, m.buf.base) :: s.vc.locked⟩, s.made :: s.maps,
    s.made + 1, .free m.handle :: .unmap s.made :: s.hooks⟩

theorem cmaNew_cases (hf : FirmwareOk env) (n : Nat) (s : Proc) :
    (s.cmaNew env n = (.error .io, s)) ∨
    (∃ vc, (∃ e ∈ vc.held, e ∉ s.vc.held) ∧ (∃ vc h, env.lock vc h = 0) ∧
      s.cmaNew env n = (.error .io, { s with vc := vc })) ∨
    ∃ m, s.cmaNew env n = (.ok m, withCma m s) ∧ m.buf.size = pages n ∧ ¬ InUse s.vc m.handle ∧
      m.handle ≠ 0 ∧ BufOk m.buf ∧ 4096 ∣ m.buf.base ∧
      ∀ h' bus' n', (h', bus') ∈ s.vc.locked → (h', n') ∈ s.vc.held → Apart m.buf ⟨bus', n'⟩ := by
  unfold cmaNew
  simp only [send_alloc]
  rw [show (n + pageSize - 1) / pageSize * pageSize = pages n from rfl]
  generalize hh : env.alloc s.vc (pages n) = h
  by_cases h0 : h = 0
  · left
    simp only [h0, if_true]
  right
  have hfr : h ∉ s.vc.held.map (·.1) := by rw [← hh]; exact hf.fresh _ _ (by rw [hh]; exact h0)
  simp only [if_neg h0]
  rw [send_lock _ _ (by simp)]
  simp only
  generalize hb : env.lock ⟨(h, pages n) :: s.vc.held, s.vc.locked⟩ h = bus
  by_cases hbus : bus = 0
  · left
    refine ⟨⟨(h, pages n) :: s.vc.held, s.vc.locked⟩, ⟨(h, pages n), List.mem_cons_self, fun hm => hfr (List.mem_map_of_mem hm)⟩,
      ⟨_, _, hb.trans hbus⟩, ?_⟩
    simp only [hbus, if_true]
  · right
    have hp := hf.place ⟨(h, pages n) :: s.vc.held, s.vc.locked⟩ h (pages n) List.mem_cons_self
      (by rw [hb]; exact hbus)
    rw [hb] at hp
    refine ⟨⟨h, ⟨bus, pages n⟩⟩, ?_, rfl, hfr, h0, hp.1, hp.2.1, fun h' bus' n' h1 h2 => ?_⟩
    · simp only [hbus, if_false]
      rfl
    · refine hp.2.2 h' bus' n' ?_ h1 (List.mem_cons_of_mem _ h2)
      rintro rfl
      exact hfr (List.mem_map_of_mem h2)

theorem tidy_phys {s : Proc} (h : ProcTidy s) : ProcTidy s.physNew := by
  refine ⟨h.locked, fun i hi => ?_⟩
  rcases List.mem_cons.1 hi with rfl | hi
  · exact Nat.lt_succ_self _
  · exact Nat.lt_succ_of_lt (h.maps i hi)

theorem tidy_cma {s : Proc} (h : ProcTidy s) (m : Cma) : ProcTidy (withCma m s) := by
  refine ⟨fun e he => ?_, fun i hi => ?_⟩
  · rcases List.mem_cons.1 he with rfl | he
    · exact List.mem_cons_self
    · have := h.locked e he
      simp only [withCma, List.map_cons, List.mem_cons]
      exact Or.inr this
  · rcases List.mem_cons.1 hi with rfl | hi
    · exact Nat.lt_succ_self _
    · exact Nat.lt_succ_of_lt (h.maps i hi)

/-! ### The end -/

/-- From `s'` the registered functions lead back to `s` (except for the number of the next
mapping). -/
def Undoes (env : VcEnv) (s s' : Proc) : Prop :=
  s'.hooks.length ≥ s.hooks.length ∧
    exitAll env (s'.hooks.length - s.hooks.length) s' = { s with made := s'.made }

theorem exitStep_made (m : Nat) (s : Proc) :
    ({ s with made := m } : Proc).exitStep env = { s.exitStep env with made := m } := by
  unfold exitStep
  rcases hh : s.hooks with _ | ⟨k, r⟩
  · simp [hh]
  · cases k with
    | unmap i => rfl
    | free h => simp only [free_eq]
    | history => rfl

theorem exitAll_made (m : Nat) : ∀ (k : Nat) (s : Proc),
    exitAll env k { s with made := m } = { exitAll env k s with made := m }
  | 0, _ => rfl
  | k + 1, s => by
    rw [exitAll, exitAll, exitStep_made, exitAll_made m k]

theorem exitAll_add : ∀ (j k : Nat) (s : Proc), exitAll env (j + k) s = exitAll env k (exitAll env j s)
  | 0, k, s => by rw [Nat.zero_add]; rfl
  | j + 1, k, s => by rw [Nat.add_right_comm, exitAll, exitAll, exitAll_add j k]

theorem Undoes.refl (s : Proc) : Undoes env s s := ⟨le_rfl, by rw [Nat.sub_self]; rfl⟩

theorem Undoes.trans {s s' s'' : Proc} (h : Undoes env s s') (h' : Undoes env s' s'') :
    Undoes env s s'' := by
  obtain ⟨h1, h2⟩ := h
  obtain ⟨h3, h4⟩ := h'
  refine ⟨le_trans h1 h3, ?_⟩
  rw [show s''.hooks.length - s.hooks.length =
    (s''.hooks.length - s'.hooks.length) + (s'.hooks.length - s.hooks.length) by omega,
    exitAll_add, h4, exitAll_made, h2]

theorem filter_made {s : Proc} (h : ProcTidy s) : s.maps.filter (· ≠ s.made) = s.maps := by
  rw [List.filter_eq_self]
  intro i hi
  have := h.maps i hi
  simp only [ne_eq, decide_not, Bool.not_eq_true', decide_eq_false_iff_not]
  omega

theorem undoes_phys {s : Proc} (h : ProcTidy s) : Undoes env s s.physNew := by
  refine ⟨by simp [physNew], ?_⟩
  rw [show s.physNew.hooks.length - s.hooks.length = 1 by simp [physNew]]
  simp only [exitAll, exitStep, physNew]
  rw [List.filter_cons_of_neg (by simp), filter_made h]

theorem undoes_cma {s : Proc} (h : ProcTidy s) {m : Cma} (hm : ¬ InUse s.vc m.handle) :
    Undoes env s (withCma m s) := by
  refine ⟨by simp only [withCma, List.length_cons]; omega, ?_⟩
  rw [show (withCma m s).hooks.length - s.hooks.length = 2 by
    simp only [withCma, List.length_cons]; omega]
  have h1 := filter_fresh hm
  have h2 : s.vc.locked.filter (·.1 ≠ m.handle) = s.vc.locked := by
    refine filter_fresh fun hl => hm ?_
    obtain ⟨e, he, e1⟩ := List.mem_map.1 hl
    have := h.locked e he
    rw [e1] at this
    exact this
  have h3 := filter_made h
  simp only [exitAll, exitStep, withCma, free_eq]
  rw [List.filter_cons_of_neg (by simp), List.filter_cons_of_neg (by simp),
    List.filter_cons_of_neg (by simp), h1, h2, h3]

theorem undoes_proto (hf : FirmwareOk env) (n : Nat) {s : Proc} (h : ProcTidy s) :
    (∃ m, s.protoNew env n = (.ok m, (withCma m s).physNew) ∧ m.buf.size = pages n ∧
      ¬ InUse s.vc m.handle ∧ BufOk m.buf ∧ 4096 ∣ m.buf.base ∧
      (∀ h' bus' n', (h', bus') ∈ s.vc.locked → (h', n') ∈ s.vc.held → Apart m.buf ⟨bus', n'⟩) ∧
      ProcTidy (withCma m s).physNew ∧ Undoes env s (withCma m s).physNew) ∨
    ∃ s', s.protoNew env n = (.error .io, s') ∧
      ((∀ vc h, env.lock vc h ≠ 0) → Undoes env s s') := by
  unfold protoNew
  rcases cmaNew_cases hf n s with h1 | ⟨vc, -, ⟨vc', h', h2⟩, h1⟩ | ⟨m, h1, h2, h3, h4, h5, h6, h7⟩
  · exact Or.inr ⟨s, by rw [h1], fun _ => .refl s⟩
  · exact Or.inr ⟨_, by rw [h1], fun hl => absurd h2 (hl _ _)⟩
  · have ht := tidy_cma h m
    exact Or.inl ⟨m, by rw [h1], h2, h3, h5, h6, h7, tidy_phys ht,
      (undoes_cma h h3).trans (undoes_phys ht)⟩

/-! ### All objects -/

/-- Everything about a successful import. -/
structure Made (env : VcEnv) (s : Proc) (o : Objs) (s' : Proc) : Prop where
  undoes : Undoes env s s'
  tidy : ProcTidy s'
  sizes : o.dma.buf.size = pages 31457280 ∧ o.pwm.buf.size = pages 8192 ∧ o.dog.buf.size = pages 65536
  good : ∀ e ∈ channels o, BufOk e.2.buf ∧ 4096 ∣ e.2.buf.base ∧
    (e.2.handle, e.2.buf.size) ∈ s'.vc.held ∧ (e.2.handle, e.2.buf.base) ∈ s'.vc.locked ∧
    ¬ InUse s.vc e.2.handle
  apart : Apart o.dma.buf o.pwm.buf ∧ Apart o.dma.buf o.dog.buf ∧ Apart o.pwm.buf o.dog.buf

theorem Apart.symm {b b' : Buf} (h : Apart b b') : Apart b' b := Or.symm h

theorem import_cases (hf : FirmwareOk env) {s : Proc} (h : ProcTidy s) :
    (∃ o s', s.importHal env = (.ok o, s') ∧ Made env s o s') ∨
    ∃ s', s.importHal env = (.error .io, s') ∧ ((∀ vc h, env.lock vc h ≠ 0) → Undoes env s s') := by
  unfold importHal
  have t0 := tidy_phys h
  have u0 := undoes_phys (env := env) h
  rcases undoes_proto hf (30 * 1024 * 1024) t0 with
    ⟨m1, e1, z1, n1, b1, a1, p1, t1, u1⟩ | ⟨s', e1, u1⟩
  swap
  · exact Or.inr ⟨s', by simp only [e1], fun hl => u0.trans (u1 hl)⟩
  simp only [e1]
  have t2 := tidy_phys (tidy_phys t1)
  have u2 := ((u0.trans u1).trans (undoes_phys t1)).trans (undoes_phys (env := env) (tidy_phys t1))
  rcases undoes_proto hf (pwmBlocks * cbSize) t2 with
    ⟨m3, e3, z3, n3, b3, a3, p3, t3, u3⟩ | ⟨s', e3, u3⟩
  swap
  · exact Or.inr ⟨s', by simp only [e3], fun hl => u2.trans (u3 hl)⟩
  simp only [e3]
  have t4 := tidy_phys t3
  have u4 := (u2.trans u3).trans (undoes_phys (env := env) t3)
  rcases undoes_proto hf (cbSize * (wdBlocks + 1)) t4 with
    ⟨m5, e5, z5, n5, b5, a5, p5, t5, u5⟩ | ⟨s', e5, u5⟩
  swap
  · exact Or.inr ⟨s', by simp only [e5], fun hl => u4.trans (u5 hl)⟩
  simp only [e5]
  simp only [InUse, withCma, physNew, List.map_cons, List.mem_cons, not_or] at n1 n3 n5
  refine Or.inl ⟨_, _, rfl, u4.trans u5, t5, ⟨z1, z3, z5⟩, ?_, ?_, ?_, ?_⟩
  · intro e he
    simp only [channels, List.mem_cons, List.not_mem_nil, or_false] at he
    rcases he with rfl | rfl | rfl
    · exact ⟨b1, a1, by simp [withCma, physNew], by simp [withCma, physNew], n1⟩
    · exact ⟨b3, a3, by simp [withCma, physNew], by simp [withCma, physNew], n3.2⟩
    · exact ⟨b5, a5, by simp [withCma, physNew], by simp [withCma, physNew], n5.2.2⟩
  · exact (p3 m1.handle m1.buf.base m1.buf.size (by simp [withCma, physNew])
      (by simp [withCma, physNew])).symm
  · exact (p5 m1.handle m1.buf.base m1.buf.size (by simp [withCma, physNew])
      (by simp [withCma, physNew])).symm
  · exact (p5 m3.handle m3.buf.base m3.buf.size (by simp [withCma, physNew])
      (by simp [withCma, physNew])).symm

end Proc

/-! ### The channels meanwhile -/

theorem feed_active {act : Nat → Moment} {b : Buf} {hw : DmaHw} {n ch : Nat}
    (h : (hw ch).active = false) : ((DmaProto.feed act 13 b ⟨hw, n⟩).hw ch).active = false := by
  simp only [DmaProto.feed, DmaBus.write, DmaHw.write_next]
  by_cases hc : ch = 13
  · subst hc
    rw [DmaHw.upd_same, DmaHw.advance_idle _ _ h]
    exact h
  · rw [DmaHw.upd_other _ hc, DmaHw.advance_idle _ _ h]
    exact h

theorem leaving_idle {env : VcEnv} {o : Proc.Objs} {x y : Proc × DmaHw} (h : Leaving env o x y)
    {ch : Nat} (hi : (x.2 ch).active = false) : (y.2 ch).active = false := by
  induction h with
  | now => exact hi
  | hook _ ih => exact ih
  | engine l _ ih => simp only at ih ⊢; rw [DmaHw.advance_idle _ _ ih]; exact ih
  | feed act n _ ih => exact feed_active ih

end PyCNC
