import Verif.Model.Pulses

/-!
# `cnc/hal_virtual.py`: the virtual machine

The back end that is used when the program does not run on a Raspberry Pi.  Its `move` does not
move anything, it checks the pulses of the generator with assertions.  The other functions only
log or return constants: `init` (12-15), `spindle_control` (18-22), `fan_control` (25-32),
`extruder_heater_control` (36-40), `bed_heater_control` (44-48), `disable_steppers` (65-68),
`join` (189-192), `deinit` (195-198), `watchdog_feed` (201-204).
-/

namespace PyCNC

namespace HalVirtual

variable {F : Type} [PyNum F]

/-- `get_extruder_temperature` and `get_bed_temperature`, `hal_virtual.py:51-62`, with
`EXTRUDER_MAX_TEMPERATURE` or `BED_MAX_TEMPERATURE` as argument. -/
def temperature (limit : Rat) : F := PyNum.ofRat limit *ₚ PyNum.ofRat (999 / 1000)

/-- `calibrate`, `hal_virtual.py:71-80`. -/
def calibrate (_x _y _z : Bool) : Bool := true

/-- The local variables of `move` for one axis: `ix`, `lx`, `mx`, `direction_x`,
`hal_virtual.py:89-94`.  Left out: `dx` outside the assertion and `cx`, which are not used. -/
structure Track (F : Type) where
  i : Int
  last : Option Int
  top : F
  dir : Int

/-- The local variables of `move`. -/
structure St (F : Type) where
  tr : V4 (Track F)
  found : Bool

/-- `hal_virtual.py:89-96`. -/
def Track.init : Track F := ⟨0, none, PyNum.ofRat 0, 1⟩

/-- `hal_virtual.py:89-96`. -/
def St.init : St F := ⟨⟨.init, .init, .init, .init⟩, false⟩

/-- `direction_x` of a direction event, e.g. `hal_virtual.py:100-102`. -/
def newDir (inverted : Bool) (d : Int) : Int := if inverted then -d else d

/-- One of the assertions on directions, e.g. `hal_virtual.py:110-111`. -/
def dirFits (d : Int) (delta : F) : Bool :=
  (decide (d < 0) && delta <ₚ PyNum.ofRat 0) || (decide (d > 0) && PyNum.ofRat 0 <ₚ delta) ||
    delta =ₚ PyNum.ofRat 0

/-- One axis of a pulse event, e.g. `hal_virtual.py:119-130`: the new local variables and the
time in microseconds. -/
def track (name : String) (t : Option F) (s : Track F) : Except PyErr (Track F × Option Int) :=
  match t with
  | none => .ok (s, none)
  | some t =>
    let top := if s.top <ₚ t then t else s.top
    let k := PyNum.roundI (t *ₚ PyNum.ofRat 1000000)
    let r := (⟨s.i + s.dir, some k, top, s.dir⟩, some k)
    match s.last with
    | none => .ok r
    | some l =>
      if k - l > 0 then .ok r
      else .error (.assertion ("negative or zero time delta detected for " ++ name))

/-- The body of the loop, `hal_virtual.py:98-171`.  Simplification: an event without any pulse
(which no generator emits) raises `IndexError` at `f[0]`; here `TypeError`. -/
def body (c : Cfg) (linear : Bool) (delta : V4 F) (ev : Event F) (s : St F) :
    Except PyErr (St F) :=
  match ev with
  | .dir d =>
    let dx := newDir c.inverted.x d.x
    let dy := newDir c.inverted.y d.y
    let dz := newDir c.inverted.z d.z
    let de := newDir c.inverted.e d.e
    if linear && !(dirFits dx delta.x && dirFits dy delta.y && dirFits dz delta.z &&
        dirFits de delta.e) then .error (.assertion "")
    else .ok ⟨⟨{ s.tr.x with dir := dx }, { s.tr.y with dir := dy }, { s.tr.z with dir := dz },
      { s.tr.e with dir := de }⟩, true⟩
  | .pulse t => do
    let (x, tx) ← track "x" t.x s.tr.x
    let (y, ty) ← track "y" t.y s.tr.y
    let (z, tz) ← track "z" t.z s.tr.z
    let (e, te) ← track "e" t.e s.tr.e
    match [tx, ty, tz, te].filterMap id with
    | [] => .error .type
    | k :: f =>
      if (k :: f).count k = (k :: f).length then .ok ⟨⟨x, y, z, e⟩, s.found⟩
      else .error (.assertion "fast forwarded pulse detected")

/-- The loop, `hal_virtual.py:97-171`. -/
def loop (c : Cfg) (linear : Bool) (delta : V4 F) : List (Event F) → St F → Except PyErr (St F)
  | [], s => .ok s
  | ev :: evs, s => do
    let s ← body c linear delta ev s
    loop c linear delta evs s

/-- One of the assertions on the number of pulses, e.g. `hal_virtual.py:174`. -/
def countFits (i : Int) (ppm : Rat) (delta : F) : Bool :=
  PyNum.round10 (ofInt i /ₚ PyNum.ofRat ppm) =ₚ delta

/-- After the loop, `hal_virtual.py:172-186`. -/
def finish (c : Cfg) (g : Gen F) (s : St F) : Except PyErr Unit :=
  if !s.found then .error (.assertion "direction not found")
  else if !countFits s.tr.x.i c.ppm.x g.delta.x then
    .error (.assertion "x wrong number of pulses")
  else if !countFits s.tr.y.i c.ppm.y g.delta.y then
    .error (.assertion "y wrong number of pulses")
  else if !countFits s.tr.z.i c.ppm.z g.delta.z then
    .error (.assertion "z wrong number of pulses")
  else if !countFits s.tr.e.i c.ppm.e g.delta.e then
    .error (.assertion "e wrong number of pulses")
  else if !(pmax (pmax (pmax s.tr.x.top s.tr.y.top) s.tr.z.top) s.tr.e.top ≤ₚ g.totalTime) then
    .error (.assertion "interpolation time or pulses wrong")
  else .ok ()

/-- `isinstance(generator, PulseGeneratorLinear)`, `hal_virtual.py:109`. -/
def isLinear : Gen F → Bool
  | .linear _ => true
  | .circular _ => false

/-- `move`, `hal_virtual.py:84-186`, with at most `n` calls of `next`; `none`: not finished. -/
def move (c : Cfg) (g : Gen F) (n : Nat) : Option (Except PyErr Unit) :=
  match g.run c n .init with
  | (evs, e) =>
    match loop c (isLinear g) g.delta evs .init with
    | .error err => some (.error err)
    | .ok s =>
      match e with
      | .done => some (finish c g s)
      | .raised err => some (.error err)
      | .unfinished => none

end HalVirtual

end PyCNC
