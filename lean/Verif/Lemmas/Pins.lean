import Verif.Lemmas.Motor
import Verif.Lemmas.HalFinish
import Verif.Lemmas.HalStream
import Verif.Lemmas.HalVirtual
import Verif.Lemmas.HistoryMoves
import Verif.Lemmas.HeadHistory
import Verif.Lemmas.ArcNew
import Verif.Lemmas.Gaps
import Verif.Lemmas.Interp

/-!
# From generators to the pins
-/

namespace PyCNC

open Spec

/-! ### Directions -/

section Any

variable {F : Type} [PyNum F] {c : Cfg} {env : Env F}

/-- All directions of the generator are 1 or -1. -/
def UnitDirs (c : Cfg) (g : Gen F) : Prop :=
  ∀ it d t, g.interp c it = .ok (d, t) → ∀ ax, d.get ax = 1 ∨ d.get ax = -1

theorem invert_unit {d : V4 Int} (h : ∀ ax, d.get ax = 1 ∨ d.get ax = -1) (ax : Axis) :
    (invertDirs c d).get ax = 1 ∨ (invertDirs c d).get ax = -1 := by
  have := h ax
  rw [get_invertDirs]
  split <;> omega

theorem run_dirsKnown {g : Gen F} (hu : UnitDirs c g) (n : Nat) :
    ∀ st, DirsKnown (g.run c n st).1 := by
  induction n with
  | zero => intro st d hd; cases hd
  | succ n ih =>
    intro st
    rcases next_cases c g st with ⟨e, _, h2⟩ | ⟨d, t, h1, h2⟩
    · rw [Gen.run, h2]; intro d hd; cases hd
    · rcases h2 with ⟨_, h2⟩ | ⟨_, _, h2⟩ | ⟨m, _, _, ⟨e, _, h2⟩ | ⟨am, _, h2⟩⟩
      · rw [Gen.run, h2]
        intro d' hd'
        rcases List.mem_cons.1 hd' with e | e
        · cases e; exact invert_unit (hu _ _ _ h1)
        · exact ih _ d' e
      · rw [Gen.run, h2]; intro d hd; cases hd
      · rw [Gen.run, h2]; intro d hd; cases hd
      · rw [Gen.run, h2]
        intro d' hd'
        rcases List.mem_cons.1 hd' with e | e
        · cases e
        · exact ih _ d' e

theorem sign1_unit (x : F) : sign1 x = 1 ∨ sign1 x = -1 := by
  unfold sign1; split <;> simp

theorem helper_unit {start i radius : Int} {side : Bool} {dir : Int} (h : dir = 1 ∨ dir = -1) :
    (circularHelper start i radius side dir).2.1 = 1 ∨
      (circularHelper start i radius side dir).2.1 = -1 := by
  unfold circularHelper
  dsimp only
  repeat' split
  all_goals simp only; omega

theorem startDirs_unit (rot : Rot) (φ : F) :
    ((startDirs rot φ).1 = 1 ∨ (startDirs rot φ).1 = -1) ∧
      ((startDirs rot φ).2 = 1 ∨ (startDirs rot φ).2 = -1) := by
  cases rot <;> simp only [startDirs] <;> constructor <;> split <;> simp

theorem circ_unitDirs {delta radius : V4 F} {plane : Plane} {rot : Rot} {v : F} {g : CircGen F}
    (h : CircGen.new c delta radius plane rot v = .ok g) : UnitDirs c (.circular g) := by
  obtain ⟨φs, φe, hf⟩ := new_facts h
  have hd := startDirs_unit rot φs
  rw [← hf.dirs] at hd
  intro it d t hi ax
  rw [(circ_planned c g it d t hi ax).1]
  unfold CircGen.dirAt
  split
  · split
    · exact hd.1
    · exact helper_unit hd.1
  · split
    · split
      · exact hd.2
      · exact helper_unit hd.2
    · split
      · rw [hf.dir3]; exact sign1_unit _
      · rw [hf.dirE]; exact sign1_unit _

theorem linear_unitDirs {delta : V4 F} {v : F} {g : LinearGen F}
    (h : LinearGen.new c delta v = .ok g) : UnitDirs c (.linear g) := by
  intro it d t hi ax
  have : d = g.dir := by
    change g.interp c it = _ at hi
    unfold LinearGen.interp at hi
    rcases h1 : linearTime it.x c.ppm.x g.total.x g.maxV.x with e | tx
    · simp only [h1, bind, Except.bind] at hi; cases hi
    rcases h2 : linearTime it.y c.ppm.y g.total.y g.maxV.y with e | ty
    · simp only [h1, h2, bind, Except.bind] at hi; cases hi
    rcases h3 : linearTime it.z c.ppm.z g.total.z g.maxV.z with e | tz
    · simp only [h1, h2, h3, bind, Except.bind] at hi; cases hi
    rcases h4 : linearTime it.e c.ppm.e g.total.e g.maxV.e with e | te
    · simp only [h1, h2, h3, h4, bind, Except.bind] at hi; cases hi
    simp only [h1, h2, h3, h4, bind, Except.bind] at hi
    cases hi; rfl
  rw [this, (linear_new_total h ax).2]
  exact sign1_unit _

theorem extraLinear_new {d : V4 F} {v : F} {lg : LinearGen F}
    (h : extraLinear c d v = .ok (some lg)) : LinearGen.new c d v = .ok lg := by
  unfold extraLinear at h
  split at h
  · rcases h1 : LinearGen.new c d v with e | g
    · simp only [h1, bind, Except.bind] at h; cases h
    · rcases h2 : checkVelocity c (Gen.linear g).maxVelocity with e | u
      · simp only [h1, h2, bind, Except.bind] at h; cases h
      · simp only [h1, h2, bind, Except.bind] at h; cases h; rfl
  · cases h

/-- The generators of all moves of a history have directions 1 or -1. -/
theorem reachable_unitDirs {s : MState F} (hs : Reachable c env s) :
    ∀ g, HalCall.move g ∈ s.trace → UnitDirs c g := by
  have key : ∀ g ∈ movesOf s.trace, UnitDirs c g := by
    have hcl : ∀ g, UnitDirs c g →
        ClosedCall (fun s : MState F => ∀ g ∈ movesOf s.trace, UnitDirs c g) (.move g) := by
      intro g hg s hs g' hg'
      rcases List.mem_cons.1 hg' with h | h
      · rw [h]; exact hg
      · exact hs g' h
    refine reachable_moves (P := fun s => ∀ g ∈ movesOf s.trace, UnitDirs c g)
      ?_ ?_ ?_ ?_ hs
    · intro g hg
      change _ ∈ ([] : List (Gen F)) at hg
      cases hg
    · intro d v s ih
      rcases moveLinear_cases (c := c) (env := env) d v s with ⟨hz, h'⟩ | ⟨_, e, h', _⟩ |
        ⟨_, g, _, hnew, _, ⟨e, he, h'⟩ | ⟨_, h'⟩⟩
      · rw [h']; exact ih
      · rw [h']; exact ih
      · rw [h']; exact hcl _ (linear_unitDirs hnew) s ih
      · rw [h']; exact hcl _ (linear_unitDirs hnew) s ih
    · intro d r v rot s ih
      rcases moveCircular_cases (c := c) (env := env) d r v rot s with ⟨e, h, _⟩ |
        ⟨ce, g, lg, _, _, hnew, _, hlg, h⟩
      · rw [h]; exact ih
      · rw [h]
        have hgen : ∀ m : M F Unit,
            M.Pres (fun s : MState F => ∀ g ∈ movesOf s.trace, UnitDirs c g) m →
            ∀ g' ∈ movesOf (m s).2.trace, UnitDirs c g' := fun m hm => hm s ih
        refine hgen _ (M.Pres.bind (halMove_pres (hcl _ (circ_unitDirs hnew))) fun _ =>
          M.Pres.bind ?_ fun _ => M.Pres.modify fun s hs => hs)
        cases lg with
        | none => exact M.Pres.pure _
        | some lg => exact halMove_pres (hcl _ (linear_unitDirs (extraLinear_new hlg)))
    · intro s s' ih _ hm g hg
      rw [hm] at hg
      exact ih g hg
  exact fun g hg => key g (mem_movesOf.2 hg)

end Any

/-! ### The engine plays what `move` has written -/

theorem behind_mono {N N' : Nat} (h : N ≤ N') {ds : List DmaSt} {ns : List Nat} {tot : Nat}
    (hb : Behind N' ds ns tot) : Behind N ds ns tot := by
  induction ds generalizing ns tot with
  | nil => exact hb.elim
  | cons d ds ih =>
    cases ns with
    | nil => cases ds <;> exact hb.elim
    | cons n ns =>
      cases ds with
      | nil =>
        cases ns with
        | nil => exact le_trans h hb
        | cons n' ns => exact ⟨hb.1, ih hb.2⟩
      | cons d' ds => exact ⟨hb.1, ih hb.2⟩

theorem behind_exists (N : Nat) (d : DmaSt) {ds : List DmaSt} (h : ∀ x ∈ ds, 0 < x.addr) :
    ∃ ns, Behind N (ds ++ [d]) ns 0 := by
  induction ds with
  | nil => exact ⟨[N], Nat.le_refl N⟩
  | cons x ds ih =>
    obtain ⟨ns, hns⟩ := ih fun y hy => h y (by simp [hy])
    refine ⟨0 :: ns, ?_⟩
    have hx := h x (by simp)
    cases ds with
    | nil => exact ⟨by simpa using hx, by simpa using hns⟩
    | cons y ds => exact ⟨by simpa using hx, by simpa using hns⟩

section Pins

variable {F : Type} [PyNum F] {c : Cfg} {p : Pins} {b : Buf} {env : MoveEnv} {fuel : Nat}
  {evs : List (Event F)} {re : RunEnd} {mem : Nat → Word} {s : MoveSt}

theorem move_plays (hb : BufOk b) (hp : PinsOk p) (hlen : c.pulseLenUs < 2 ^ 26)
    (h : Hal.move c p b env fuel evs re mem = (s, .done)) {w₀ : World} (h1 : w₀.log = [])
    (h2 : w₀.time = 0) {ns : List Nat} (hns : Behind (b.size / 32) s.live.reverse ns 0) :
    ∃ w Ts, Dma.runLive b s.live.reverse ns b.base w₀ = (w, 0) ∧
      Plays p c.pulseLenUs 0 evs (edges w.log.reverse) Ts := by
  obtain ⟨-, -, hne, -, -, ht⟩ := Hal.move_ok h
  obtain ⟨d, ds, hh, hl, hds⟩ := Hal.move_live h
  rw [hl, List.reverse_cons] at hns ⊢
  have hN : (evsBlks c p 0 evs).length ≤ b.size / 32 := by
    have := hh.1; have := hh.2.1; omega
  obtain ⟨m, hm⟩ := runLive_ok ⟨hb.pos, hb.top, hb.apart⟩ hh ds.reverse ns 0 w₀
    (fun x hx => hds x (List.mem_reverse.mp hx)) (List.length_pos_iff.mpr hne) (behind_mono hN hns)
  obtain ⟨Ts, hT, -⟩ := plays_evs (c := c) hp hlen evs ht 0 0
  refine ⟨_, Ts, by simpa using hm, ?_⟩
  simp only [foldl_log, h1, h2, List.append_nil, List.reverse_reverse]
  exact hT

theorem body_livePos {ev : Event F} {s s' : MoveSt} (hl : ∀ x ∈ s.live, 0 < x.addr)
    (h : Hal.moveBody c p b env ev s = .ok s') : ∀ x ∈ s'.live, 0 < x.addr := by
  have hupd : ∀ {s : MoveSt} {d : DmaSt}, (∀ x ∈ s.live, 0 < x.addr) → 0 < d.addr →
      ∀ x ∈ (Hal.upd s d).live, 0 < x.addr := by
    intro s d hl hd x hx
    simp only [Hal.upd] at hx
    split at hx
    · rcases List.mem_cons.1 hx with rfl | hx
      · exact hd
      · exact hl x hx
    · cases hx
  rcases Hal.moveBody_cases h with ⟨x, y, d, hd, rfl⟩ | ⟨k, s1, hs1, m, d, hd, hcase⟩
  · exact hupd hl (by have := (addSetClear_added hd).1; omega)
  · have h1 : ∀ x ∈ s1.live, 0 < x.addr := by
      rcases hs1 with ⟨u, d1, hd1, rfl⟩ | rfl
      · exact hupd (s := { s with k := k }) hl (by have := (addDelay_added hd1).1; omega)
      · exact hl
    have hd0 : 0 < d.addr := by have := (addPulse_added hd).1; omega
    rcases hcase with rfl | rfl | ⟨_, _, rfl⟩
    · exact hupd h1 hd0
    · exact hupd h1 hd0
    · intro x hx
      simp only [List.mem_cons, List.not_mem_nil, or_false] at hx
      rw [hx]; exact hd0

theorem loop_livePos {evs : List (Event F)} {s s' : MoveSt} {e : MoveEnd}
    (hl : ∀ x ∈ s.live, 0 < x.addr) (h : Hal.moveLoop c p b env fuel evs s = (s', e)) :
    ∀ x ∈ s'.live, 0 < x.addr := by
  induction evs generalizing s with
  | nil => injection h with h1 h2; subst h1; exact hl
  | cons ev evs ih =>
    unfold Hal.moveLoop at h
    split at h
    · injection h with h1 h2; subst h1; exact hl
    · rename_i s1 hw
      have h1 : ∀ x ∈ s1.live, 0 < x.addr := by rw [Hal.moveWait_live hw]; exact hl
      split at h
      · injection h with h2 h3; subst h2; exact h1
      · rename_i s2 hb
        exact ih (body_livePos h1 hb) h

theorem move_livePos (h : Hal.move c p b env fuel evs re mem = (s, .done)) :
    ∀ x ∈ s.live.tail, 0 < x.addr := by
  unfold Hal.move at h
  split at h
  · rename_i s1 hl
    have h1 := loop_livePos (fun x hx => by cases hx) hl
    cases re with
    | raised e => injection h with _ h; cases h
    | unfinished => injection h with _ h; cases h
    | done =>
      simp only [Hal.moveFinish] at h
      split at h
      · injection h with h _
        subst h
        exact h1
      · split at h
        · injection h with _ h; cases h
        · injection h with h _
          subst h
          exact fun x hx => by cases hx
  · exact absurd h Hal.moveLoop_not_done

/-- There is a schedule for every finished `move`. -/
theorem edges_exist (hb : BufOk b) (hp : PinsOk p) (hlen : c.pulseLenUs < 2 ^ 26)
    (h : Hal.move c p b env fuel evs re mem = (s, .done)) {w₀ : World} (h1 : w₀.log = [])
    (h2 : w₀.time = 0) :
    ∃ ns w, Behind (b.size / 32) s.live.reverse ns 0 ∧
      Dma.runLive b s.live.reverse ns b.base w₀ = (w, 0) := by
  obtain ⟨d, ds, hh, hl, hds⟩ := Hal.move_live h
  have hpos := move_livePos h
  obtain ⟨ns, hns⟩ := behind_exists (b.size / 32) (DmaGpio.finalize d) (ds := ds.reverse)
    fun x hx => hpos x (by rw [hl]; exact List.mem_reverse.1 hx)
  have e : s.live.reverse = ds.reverse ++ [DmaGpio.finalize d] := by rw [hl, List.reverse_cons]
  rw [← e] at hns
  obtain ⟨w, Ts, h3, -⟩ := move_plays hb hp hlen h h1 h2 hns
  exact ⟨ns, w, hns, h3⟩

end Pins

/-! ### Histories -/

section Histories

section AnyF

variable {F : Type} [PyNum F] {c : Cfg} {p : Pins} {b : Buf}

theorem emits_dirsKnown {g : Gen F} {evs : List (Event F)} (hu : UnitDirs c g)
    (h : Emits c g evs) : DirsKnown evs := by
  obtain ⟨n, h⟩ := h
  have := run_dirsKnown hu n .init
  rwa [h n le_rfl] at this

/-- A driver makes the steps of the moves. -/
theorem played_steps (hb : BufOk b) (hp : PinsOk p) (ha : PinsApart p)
    (hlen : c.pulseLenUs < 2 ^ 26) {tr : List (HalCall F)} {es : List Edge}
    (hu : ∀ g, HalCall.move g ∈ tr → UnitDirs c g) (h : Played c p b tr es) (ax : Axis)
    {d : Driver} (h0 : d.step = false) {evs : List (Event F)} (hs : Sends c tr evs) :
    (d.sees p ax es).step = false ∧
      along c ax (d.sees p ax es).pos = along c ax d.pos + netSteps c ax evs := by
  induction h generalizing evs with
  | nil =>
    cases hs with
    | nil => exact ⟨h0, by simp [Driver.sees_nil, netSteps, netFrom]⟩
  | @move g tr es evs' env fuel mem s ns w₀ w em rd lg tm bh rn rest ih =>
    cases hs with
    | @move _ _ evs1 evs2 em2 hs =>
      obtain ⟨i1, i2⟩ := ih (fun g hg => hu g (by simp [hg])) hs
      have : evs2 = evs' := emits_unique em2 em
      subst this
      obtain ⟨w', Ts, h3, hpl⟩ := move_plays hb hp hlen rd lg tm bh
      rw [rn] at h3
      cases h3
      have hdk := emits_dirsKnown (hu g (by simp)) em
      rw [Driver.sees_append]
      obtain ⟨j1, j2⟩ := plays_driver (c := c) hp ha ax hpl hdk (d := d.sees p ax es) i1
      refine ⟨j1, ?_⟩
      rw [j2, i2]
      have han := emits_announced em (List.prefix_refl _)
      rw [netSteps_append han, netFrom_announced han, netSteps, netSteps, add_assoc]
    | other h _ => exact absurd rfl (h g)
  | @other call tr es h rest ih =>
    cases hs with
    | move _ _ => exact absurd rfl (h _)
    | other _ hs => exact ih (fun g hg => hu g (by simp [hg])) hs

/-- Moves that the back end can carry out one by one can be carried out one after the other. -/
theorem played_of_ends (hb : BufOk b) (hp : PinsOk p) (hlen : c.pulseLenUs < 2 ^ 26)
    {tr : List (HalCall F)}
    (h : ∀ g, HalCall.move g ∈ tr → ∃ evs s, Emits c g evs ∧
      Hal.move c p b ⟨fun _ => none, fun _ => false⟩ 1 evs .done (fun _ => 0#32) = (s, .done)) :
    ∃ es, Played c p b tr es := by
  induction tr with
  | nil => exact ⟨[], .nil⟩
  | cons call tr ih =>
    obtain ⟨es, hes⟩ := ih fun g hg => h g (by simp [hg])
    by_cases hcall : ∃ g, call = .move g
    · obtain ⟨g, rfl⟩ := hcall
      obtain ⟨evs, s, h1, h2⟩ := h g (by simp)
      let w₀ : World := ⟨fun _ => 0#32, ⟨fun _ => 0#32, fun _ => false, fun _ => 0#2, fun _ => 0#32⟩, [], 0⟩
      obtain ⟨ns, w, h3, h4⟩ := edges_exist hb hp hlen h2 (w₀ := w₀) rfl rfl
      exact ⟨_, .move h1 h2 rfl rfl h3 h4 hes⟩
    · exact ⟨es, .other (fun g hg => hcall ⟨g, hg⟩) hes⟩

end AnyF

variable [PyRound] {c : Cfg} {p : Pins} {b : Buf}

/-- Moves that the back end can carry out: straight, of ordinary size, and no longer than the
table, with at most `m` millimetres of extrusion. -/
def Doable (c : Cfg) (m : ℚ) (g : Gen ℝ) : Prop :=
  ∃ lg d v, g = .linear lg ∧ OrdinaryMove d v ∧ LinearGen.new c d v = .ok lg ∧
    ∀ ax, (lg.total.get ax : ℝ) ≤ reach c m ax * c.ppm.get ax

theorem grown_doable {m : ℚ} {tr tr' : List (HalCall ℝ)} (h : ∀ g, HalCall.move g ∈ tr → Doable c m g)
    (hg : Grown c m tr tr') : ∀ g, HalCall.move g ∈ tr' → Doable c m g := by
  rcases hg with rfl | ⟨lg, d, v, rfl, h1, h2, h3⟩
  · exact h
  · intro g hg
    rcases List.mem_cons.1 hg with e | e
    · cases e
      exact ⟨lg, d, v, rfl, h1, h2, h3⟩
    · exact h g e

theorem linear_ends {env : MoveEnv} {fuel N : Nat} (hc : SaneCfg c)
    (hppm : ∀ ax, 10 ≤ c.ppm.get ax)
    (hb : BufOk b) (hp : PinsOk p) (hlen : c.pulseLenUs < 2 ^ 26)
    (hN : IdleAfter env N) (h1 : 1 ≤ fuel) (hf : N ≤ fuel) {lg : LinearGen ℝ} {d : V4 ℝ} {v : ℝ}
    (hm : OrdinaryMove d v) (hnew : LinearGen.new c d v = .ok lg) {B : Axis → ℝ}
    (htot : ∀ ax, ((lg.total.get ax).toNat : ℝ) ≤ B ax)
    (hsz : 32 + 128 * (B .x + B .y + B .z + B .e) ≤ b.size) (mem : Nat → Word) :
    ∃ evs s, Emits c (.linear lg) evs ∧ Hal.move c p b env fuel evs .done mem = (s, .done) := by
  obtain ⟨r, ks, h2, h3, h4, h5, h6, -⟩ := linear_stream hc hm hppm hnew
  have hroom : room (.dir (invertDirs c lg.dir) :: r) ≤ b.size := by
    refine le_trans h6 ?_
    have hx := htot .x
    have hy := htot .y
    have hz := htot .z
    have he := htot .e
    simp only [V4.get] at hx hy hz he
    have hes : ((32 + 128 * ((lg.total.x).toNat + (lg.total.y).toNat + (lg.total.z).toNat +
        (lg.total.e).toNat) : ℕ) : ℝ) ≤ b.size := by
      push_cast
      linarith
    exact_mod_cast hes
  obtain ⟨s, hs⟩ := Hal.move_ends (c := c) (env := env) (mem := mem) hb hp hlen hN h1 hf
    (by simp) h4 h5 hroom
  exact ⟨_, s, h2, hs⟩

theorem doable_ends {env : MoveEnv} {fuel N : Nat} (hc : SaneCfg c)
    (htab : 0 ≤ c.tableX ∧ 0 ≤ c.tableY ∧ 0 ≤ c.tableZ) (hppm : ∀ ax, 10 ≤ c.ppm.get ax)
    (hb : BufOk b) (hp : PinsOk p) (hlen : c.pulseLenUs < 2 ^ 26) {m : ℚ} (hm0 : 0 ≤ m) (hsz : longestMove c m ≤ b.size)
    (hN : IdleAfter env N) (h1 : 1 ≤ fuel) (hf : N ≤ fuel) {g : Gen ℝ} (hg : Doable c m g)
    (mem : Nat → Word) :
    ∃ evs s, Emits c g evs ∧ Hal.move c p b env fuel evs .done mem = (s, .done) := by
  obtain ⟨lg, d, v, rfl, hm, hnew, htot⟩ := hg
  refine linear_ends hc hppm hb hp hlen hN h1 hf hm hnew
    (B := fun ax => reach c m ax * c.ppm.get ax) (fun ax => ?_) ?_ mem
  · have h7 := htot ax
    rcases le_total 0 (lg.total.get ax) with h8 | h8
    · have : ((lg.total.get ax).toNat : ℝ) = (lg.total.get ax : ℝ) := by
        exact_mod_cast Int.toNat_of_nonneg h8
      rw [this]; exact h7
    · have e : (lg.total.get ax).toNat = 0 := Int.toNat_of_nonpos h8
      rw [e]
      have h9 : (0 : ℚ) ≤ reach c m ax * c.ppm.get ax := by
        refine mul_nonneg ?_ (hc.ppm_pos ax).le
        cases ax
        exacts [htab.1, htab.2.1, htab.2.2, hm0]
      have : (0 : ℝ) ≤ reach c m ax * c.ppm.get ax := by exact_mod_cast h9
      simpa using this
  · have hs : ((longestMove c m : ℚ) : ℝ) ≤ (b.size : ℝ) := by exact_mod_cast hsz
    simp only [longestMove] at hs
    push_cast at hs
    simp only [V4.get, reach, tableSize]
    linarith

theorem played_exists (hc : SaneCfg c)
    (htab : 0 ≤ c.tableX ∧ 0 ≤ c.tableY ∧ 0 ≤ c.tableZ) (hppm : ∀ ax, 10 ≤ c.ppm.get ax)
    (hb : BufOk b) (hp : PinsOk p) (hlen : c.pulseLenUs < 2 ^ 26) {m : ℚ} (hm0 : 0 ≤ m) (hsz : longestMove c m ≤ b.size)
    {tr : List (HalCall ℝ)} (h : ∀ g, HalCall.move g ∈ tr → Doable c m g) :
    ∃ es, Played c p b tr es :=
  played_of_ends hb hp hlen fun g hg =>
    doable_ends (N := 0) hc htab hppm hb hp hlen hm0 hsz (fun _ _ => rfl) le_rfl (by omega) (h g hg) _

end Histories

end PyCNC
