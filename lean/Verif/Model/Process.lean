import Verif.Model.DmaProto
import Verif.Model.Pwm

/-!
# Memory for the DMA engines, from the start to the end of the process

`hal_raspberry/rpgpio_private.py:109-211`, the constructors in `hal_raspberry/rpgpio.py:87-119,
265-291, 367-372` as far as they ask for memory, the objects created by `hal_raspberry/hal.py:10-13`
and the registrations with `atexit`.
-/

namespace PyCNC

/-- `PAGE_SIZE`, `rpgpio_private.py:34`. -/
abbrev pageSize : Nat := 4096

/-! ## The firmware behind `/dev/vcio` -/

/-- What the memory manager of the VideoCore holds: handles with the size of their memory, and the
handles that are locked with the bus address of their memory. -/
structure Vc where
  held : List (Nat × Nat)
  locked : List (Nat × Nat)
  deriving DecidableEq

/-- Its decisions: a new handle for a size, or zero; the bus address of a handle, or zero. -/
structure VcEnv where
  alloc : Vc → Nat → Nat
  lock : Vc → Nat → Nat

namespace Vc

/-- A message of the mailbox property interface: total size in bytes, zero (a request), one tag with
the sizes of its buffer and of its data, its values and a zero.  Tags: `0x3000c` allocates memory
(size, alignment, flags), `0x3000d` locks it, `0x3000e` unlocks it, `0x3000f` releases it (a handle).
The answer replaces the first value.  A message that is not of this form is returned as it is. -/
def property (env : VcEnv) (msg : List Nat) (vc : Vc) : List Nat × Vc :=
  if msg.headD 0 = 4 * msg.length ∧ msg.getD 1 1 = 0 ∧ msg.getD 3 0 + 24 = 4 * msg.length ∧
      msg.getLast? = some 0 then
    let tag := msg.getD 2 0
    let a := msg.getD 5 0
    if tag = 0x3000c ∧ msg.length = 9 then
      let h := env.alloc vc a
      (msg.set 5 h, if h = 0 then vc else { vc with held := (h, a) :: vc.held })
    else if tag = 0x3000d ∧ msg.length = 7 then
      if (vc.held.map (·.1)).contains a then
        let bus := env.lock vc a
        (msg.set 5 bus, if bus = 0 then vc else { vc with locked := (a, bus) :: vc.locked })
      else (msg.set 5 0, vc)
    else if tag = 0x3000e ∧ msg.length = 7 then
      (msg.set 5 0, { vc with locked := vc.locked.filter (·.1 ≠ a) })
    else if tag = 0x3000f ∧ msg.length = 7 then
      -- memory that is locked is not released
      if (vc.locked.map (·.1)).contains a then (msg.set 5 1, vc)
      else (msg.set 5 0, { vc with held := vc.held.filter (·.1 ≠ a) })
    else (msg, vc)
  else (msg, vc)

end Vc

/-! ## The process -/

/-- What is registered with `atexit`. -/
inductive Hook where
  /-- `PhysicalMemory.cleanup`, `rpgpio_private.py:124-125`, of the mapping with this number -/
  | unmap (i : Nat)
  /-- `CMAPhysicalMemory.free`, `rpgpio_private.py:175-180`, of the memory with this handle -/
  | free (handle : Nat)
  /-- `readline.write_history_file`, `main.py:25` -/
  | history
  deriving DecidableEq

/-- The process: the firmware, the mappings of memory that are open, how many there were, and the
functions registered with `atexit`, newest first. -/
structure Proc where
  vc : Vc
  maps : List Nat
  made : Nat
  hooks : List Hook
  deriving DecidableEq

/-- A `CMAPhysicalMemory` object: `_handle`, and bus address and size. -/
structure Cma where
  handle : Nat
  buf : Buf
  deriving DecidableEq, Repr

namespace Proc

variable (env : VcEnv)

/-- `_send_data`, `rpgpio_private.py:182-192`. -/
def sendData (request : Nat) (args : List Nat) (s : Proc) : Nat × Proc :=
  let data := [24 + 4 * args.length, 0, request, 4 * args.length, 4 * args.length] ++ args ++ [0]
  let r := s.vc.property env data
  (r.1.getD 5 0, { s with vc := r.2 })

/-- `PhysicalMemory.__init__`, `rpgpio_private.py:111-122`.  Simplification: `/dev/mem` can be opened
and mapped. -/
def physNew (s : Proc) : Proc :=
  { s with maps := s.made :: s.maps, made := s.made + 1, hooks := .unmap s.made :: s.hooks }

/-- `CMAPhysicalMemory.__init__`, `rpgpio_private.py:154-173`.  There is no `__del__`, of which the
comment in line 168 speaks. -/
def cmaNew (size : Nat) (s : Proc) : Except PyErr Cma × Proc :=
  let size := (size + pageSize - 1) / pageSize * pageSize
  let (handle, s) := s.sendData env 0x3000c [size, pageSize, 0xC]
  if handle = 0 then (.error .io, s)
  else
    let (bus, s) := s.sendData env 0x3000d [handle]
    if bus = 0 then (.error .io, s)
    else
      let s := s.physNew
      (.ok ⟨handle, ⟨bus, size⟩⟩, { s with hooks := .free handle :: s.hooks })

/-- `free`, `rpgpio_private.py:175-180`. -/
def free (handle : Nat) (s : Proc) : Proc :=
  let s := (s.sendData env 0x3000e [handle]).2
  (s.sendData env 0x3000f [handle]).2

/-- `DMAProto.__init__`, `rpgpio_private.py:203-211`. -/
def protoNew (size : Nat) (s : Proc) : Except PyErr Cma × Proc :=
  match s.cmaNew env size with
  | (.error e, s) => (.error e, s)
  | (.ok m, s) => (.ok m, s.physNew)

/-- The memory of the three objects. -/
structure Objs where
  /-- `DMAGPIO` -/
  dma : Cma
  /-- `DMAPWM` -/
  pwm : Cma
  /-- `DMAWatchdog` -/
  dog : Cma

/-- The objects of `hal_raspberry/hal.py:10-13`: `GPIO` maps its registers (`rpgpio.py:18-21`),
`DMAGPIO` takes 30 megabytes and maps the registers of the PWM module and of the clock manager
(`rpgpio.py:98-104`), `DMAPWM` takes 256 blocks and maps the GPIO registers (`rpgpio.py:278-291`),
`DMAWatchdog` takes 2048 blocks (`rpgpio.py:370-372`). -/
def importHal (s : Proc) : Except PyErr Objs × Proc :=
  let s := s.physNew
  match s.protoNew env (30 * 1024 * 1024) with
  | (.error e, s) => (.error e, s)
  | (.ok dma, s) =>
    let s := s.physNew.physNew
    match s.protoNew env (pwmBlocks * cbSize) with
    | (.error e, s) => (.error e, s)
    | (.ok pwm, s) =>
      let s := s.physNew
      match s.protoNew env (cbSize * (wdBlocks + 1)) with
      | (.error e, s) => (.error e, s)
      | (.ok dog, s) => (.ok ⟨dma, pwm, dog⟩, s)

/-- The interpreter ends: the registered function added last is called first. -/
def exitStep (s : Proc) : Proc :=
  match s.hooks with
  | [] => s
  | .unmap i :: r => { s with maps := s.maps.filter (· ≠ i), hooks := r }
  | .free h :: r => ({ s with hooks := r }).free env h
  | .history :: r => { s with hooks := r }

/-- All of them. -/
def exitAll : Nat → Proc → Proc
  | 0, s => s
  | n + 1, s => exitAll n (s.exitStep env)

end Proc

/-- What `deinit` does with the DMA channels, `hal.py:323-333`, once the first question of `join`
(`hal.py:318`) that is answered with no is asked; `none` if it is answered with yes.  `remove_all`
stops the channel of the PWM with the last pin if it is active (`rpgpio.py:350-351`); `pins` says
whether there are pins.  Simplification: it is called with Python 2 or without pins, see C50. -/
def deinitChannels (act : Nat → Moment) (pins : Bool) (s : DmaBus) : Option DmaBus :=
  let (working, s) := DmaProto.isActive act gpioChannel s
  if working then none
  else
    let s :=
      if pins then
        let (on, s) := DmaProto.isActive act pwmChannel s
        if on then DmaProto.stopDma act pwmChannel s else s
      else s
    some (DmaProto.stopDma act dogChannel s)

end PyCNC
