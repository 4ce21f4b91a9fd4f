# Formal verification of PyCNC in Lean 4

Source under study: `/repo` (PyCNC: a G-code interpreter, motion planner and
Raspberry Pi pulse generator in Python).  Everything below is about the text of
that source; nothing of it is executed.

## 1. How the code is modelled

The Lean project `lean/` contains a *model* (`Verif/Model/*`), a small
*specification vocabulary* (`Verif/Spec/*`) that does not use the helper
functions of the model, and *property theorems* (`Verif/Props/*`).

* Every Python function is one Lean function with the same branch structure.
  Exceptions are values of type `PyErr`; a division whose divisor may be zero,
  a square root whose argument may be negative, `float()` of a malformed string
  and every `raise`/`assert` is an explicit error branch.
* **Numbers.**  The model is written once over an operation-only type class
  `PyNum F` (no laws).  It is instantiated with
  1. the real numbers ("exact arithmetic"; rounding `round()` is any
     nearest-integer function, class `PyRound`, so that Python 3 half-to-even and
     Python 2 half-away-from-zero are both covered);
  2. a model of IEEE binary64 with round to nearest (`F64`), without overflow,
     NaN, infinities, subnormals and signed zero;
  Theorems say which instance they are about: *any* `PyNum` (pure control flow),
  binary64, or exact arithmetic.
* **Configuration.**  `cnc/config.py` is a record `Cfg`; `Cfg.default` has the
  values of the file.  Theorems are stated for every configuration that meets
  explicitly stated sanity conditions, and the default one is shown to meet them.
* **GMachine** is a state machine in a state-and-exception monad in which state
  changes made before an exception persist (as in Python).  HAL calls are recorded
  in a trace; values returned by the HAL (temperatures, calibration result,
  exceptions of a call) come from an environment that may depend on the whole
  trace and over which all theorems quantify.
* **Generators** (`PulseGenerator.next`) are a step function on the iterator state.
* **Threads** (heater worker, PWM users) are small-step transition systems whose
  atomic actions are lock operations and shared reads/writes.
* **DMA** is an interpreter of control blocks in word-addressed memory.

## 2. Properties, what is modelled for each, and how it is proved

The status of each property is in `MANIFEST.json`; this table gives the method.

| id | modelled code | method |
|----|---------------|--------|
| C01 | `gcode.py` parse_line, both regular expressions | tokenizer/renderer round trip, induction on strings |
| C02 | clean_pattern | induction over segments of the line |
| C03 | upper() | congruence |
| C04 | get/has + do_command + do_line | refuted by witness (`X1.2.3`), partial for well formed numbers |
| C05 | parse_line, do_command | case analysis |
| C06 | Coordinates | exact arithmetic by integrality of the 10^-10 grid; binary64 by error bounds |
| C07 | Coordinates.round | nearest-integer laws |
| C08 | is_in_aabb | order reasoning |
| C09 | do_command, safe_zero, reset, release | invariant over all histories |
| C10 | pulses + machine | history induction over all prefixes of the pulse trains; an arc that itself lies on the table has all its pulses there: an axis that turns back at the border of its circle does so next to the point of the arc on that border (`psi_peak`, `Track.border`), and all such points but the last are checked by the program (`arc_check`, see C79); circular in general: refuted by witness |
| C11 | pulses + machine | history induction with net pulse counts; refuted for arcs by witness |
| C12–C15 | do_command | symbolic evaluation of the model |
| C16 | do_command | simulation between the two unit modes |
| C17 | do_command | monadic Hoare reasoning on error exits |
| C18–C20 | do_command | case analysis, history invariants |
| C21–C27 | do_command, `_heat`, `_spindle`, `_fan`, release | trace invariants |
| C28–C31 | PulseGeneratorLinear, PulseGenerator.next | loop invariants of the iterator, real analysis of the time map |
| C32–C33 | _adjust_velocity, __check_velocity, constructors of both generators | real arithmetic; angle of turn as a separate specification (`Sweep`) |
| C34, C36, C37 | PulseGeneratorCircular | counting lemmas, refutations by concrete arcs |
| C35 | __adjust_circle, _move_circular | algebra of the point chosen on the circle; refuted by witness, partial |
| C38–C39 | `pid.py` | history invariants |
| C40–C43, C59 | `heater.py` (worker thread and caller of stop/wait) | transition system invariants; liveness under fairness by a rank argument; refutation of C41 by deadlock |
| C44–C46 | `hal_raspberry/hal.py` move, `rpgpio.py` DMAGPIO | encode/decode theorem for control blocks |
| C47 | rpgpio.GPIO | bit-vector lemmas |
| C48–C50 | rpgpio.DMAPWM | sequential invariant; race witness |
| C51 | rpgpio.DMAWatchdog | timed chain walk |
| C52 | hal.calibrate, hal.__calibrate_private, DMA engine running concurrently | loop invariant over the history of hardware actions; ranking by the clock; two refutations by evaluation |
| C53–C54, C60, C62 | `sensors/thermistor.py`, `sensors/ads111x.py` | real analysis; lock state machine; bus operations against a model of the ADS1115 (`Spec/Ads.lean`) |
| C55–C56 | main.py | fold over lines, refuted for escaping exceptions |
| C57 | parse_line, do_line, do_command | reference interpreter `Spec/Interp.lean` (integer steps, origin, unit, mode, feed; no velocities or pulses); simulation line by line from the program text to the pulses of the motors. The extruder's step is not a decimal number, so the interpreter keeps its position in mm beside the steps; the two drift apart by at most half of the tenth decimal per line (`C57_drift`) |
| C61 | `float()` of a word | induction on digits |
| C58, C63 | both generators in binary64 (`Lemmas/Float`, `Run64`, `Linear64`, `Radius64`) | rounding error analysis; an exact run of 232 pulses as witness for truncation |
| C64 | `hal_virtual.move` as a fold over the events of a generator, each assertion an error branch (`Model/HalVirtual`) | induction over the events for soundness; C28–C30 for straight moves; the witness of C34 for the refutation |
| C65 | nothing new; `Spec/Motor` has a stepper driver and what it means that the moves of a history are carried out by `Hal.move` and the engine | directions of both generators are always ±1 (induction over histories); C44 for each move; induction over the events for the driver; induction over the trace |
| C66 | nothing new | `move` cannot fail: room by counting blocks, pauses below 2^26 µs because consecutive pulses of a straight move are at most 32 s apart; then C57 and C65 |
| C67 | `hal.init` as a list of GPIO calls (`Model/HalPi.lean`) on the register model of C47 | induction over the list of pins, each `gpio.init` frames the other pins (C47) |
| C68 | `hal.deinit`, the control functions, `Pi.init` on the state of C48 (PWM object, engine, registers) plus a bit for the watchdog | an invariant over all uses (`Lemmas/HalPi.lean`), on top of that of C48; `C68_release` from C24; `Carries` (`Spec/HalPi.lean`) says how the calls of the machine and those of the back end belong together |
| C69 | the same; played moves are writes to motor pins (`PiUse.motor`, justified by `C69_moves`) | the same invariant |
| C70 | nothing new | invariant over all histories; refutation: C57 and C65 for a concrete program, intermediate values |
| C71 | nothing new; the machine with `F64` numbers | simulation of the interpreter of C57 by the machine in binary64: `Coordinates.__init__` rounds to ten decimals, so sums and differences of positions below 10^5 mm are the binary64 numbers nearest to the exact decimals (`Lemmas/Decimal64.lean`); steps are the same unless the point is half way between two; the adjusted velocity never exceeds the limit (`Lemmas/Limit64.lean`) |
| C72 | nothing new; the machine with `F64` numbers, `Played` for any arithmetic | velocities nearly proportional to the distances and bounded times of acceleration (`Lemmas/Shape64.lean`); `_to_accelerated_time` in binary64 is within 0.1 s of its real value, through the edge between the phases (`Lemmas/Warp64.lean`); so consecutive pulses are at most 22 s apart (`Lemmas/Gaps64.lean`, induction over the run with the uniform time reached), and `move` cannot fail; then C65 and C71 |
| C73 | `DMAProto` and `run_stream` access by access, on a model of the channel registers (`Model/DmaProto.lean`): ACTIVE, END, RESET, ABORT, the current and the next block; the engines complete blocks between any two accesses | an invariant over the life of a channel (`Proper`: active with a block of the buffer loaded, or idle with none), the other channels only advance; the watchdog by a simulation with the model of C51; the clock by evaluation of the list of writes |
| C74 | `CMAPhysicalMemory`, `PhysicalMemory`, `DMAProto.__init__` and the constructors above them, with the messages to `/dev/vcio` and a memory manager behind it; functions registered with `atexit` as a stack; the channel registers of C73 (`Model/Process.lean`) | each constructor is undone by the functions it registers (`Undoes`, composed in the order of the import); an idle channel stays idle through engines and feeds; refutations from C56, C51 and C73 |
| C75 | the generator of C34/C36/C37 in exact arithmetic | the to and fro of an axis is unrolled to a straight track; `Psi R u` is the angle at which the unrolled position is `u`, monotone, and one step apart means one unit of `R sin`; the timetable of either axis is that angle (`times_a`, `times_b`), so the order of the times (`InOrder`) bounds the lag between the axes; at both ends the rounded radius moves the angle by less than a step (`Track`) |
| C76 | the generator of C34/C36/C37/C75 in exact arithmetic | `FlatArc` states the timing of an arc of two axes in terms of its speed `V` and radius `ρ` (`flat_arc`, from the constructor); the warp never moves two times closer together than they are (`warp_gap`), one step apart on the circle is at least one unit of `R·sin` (`Track.turn_gap`), hence at least `1/(ppm·V)` seconds; the speed limit of the axes comes from `adjustVelocity_ok` and `round10_le_grid`; helices by `HelixTimes` (`C76_helix_partial`); `C76_refuted`: the last pulse of an axis is sent at the end of the turn, which may be half a step early |
| C77 | the generator of C34/C36/C37/C75/C76 in exact arithmetic | the inverse of the warp (`travel`) is a motion with acceleration `V/accT` (`FlatArc.motion`), which is the configured one on long arcs (`FlatArc.long`); the pulses before and after a time bound the turn of either axis (`ArcTracks.moment`, `FlatArc.at_time`); refutations: `Motion.from_rest` against the time of the last pulse, and the second difference of the X axis at the top of a circle (`Motion.bend`); helices: the speeds of all motors are parts of one speed up to 3e-10 mm/s (`HelixTimes.share`), `C77_rest_refuted` is again a second difference, of Z at the end of a helix |
| C78 | parse_line, do_line, do_command, _move_circular, the generator of C34–C37 in exact arithmetic | the interpreter of C57 with planes and arcs (`Spec/ArcInterp.lean`; an arc is its end point, refused if off the table or without a centre); `arc_refstep` joins `circleEnd`, the area check and the pulse counts of C34/C37 for one arc, `arcLine_matches` one line, `arcProgram_matches` the whole text; the way by C10 |
| C79 | `__adjust_circle` with `__quarter` and its loop, `_move_circular` | `fitLoop_checks` says which border the n-th turn of the loop checks, `quarter_dir` which directions a quarter of the code stands for; `fit_borders` counts right angles between start and end, `arc_check` reads the result for the arc that is made after rounding its end to steps |
| C80 | `PulseGeneratorLinear`, `_adjust_velocity`, `__next__`; `PulseGeneratorCircular` | `feed_velocity` follows the constructor's vector through both roundings and the adjustment; between the phases the warp of time is a shift (`travel_uniform`), for short moves the window is empty; arcs by the way along the circle of C77, cut off at the end of the turn, which short arcs reach before their time is up (`FlatArc.at_time_min`); `flat_vel` says which speed an arc gets; helices by `HelixTimes.plane_at` and `HelixTimes.net_at` |
| C81 | `hal.move`, `DMAGPIO.add_delay`, `add_pulse` (models of C44, C45) | the induction of C45 with the lag as a second accumulator (`lags`); a lag never shrinks and grows when two pulses are planned nearer than a pulse is long (`lag_grows`); the witness counts this for the first pulses of two motors in the acceleration phase, where their times are square roots |
| C82 | `hal.move` (model of C44) | what one iteration of the loop does to the trace and to the variables of the early start (`moveBody_pulse_cases`), induction over the events (`moveLoop_started`); the witness: the loop runs to the end of the events or of the memory (`moveLoop_full`), 450000 pulses need more blocks than fit, and the prefix that fits lasts longer than 100 ms because pulses of one motor do not overlap (`single_spaced`) |
| C83 | the `G0` branch of `do_command` (`rapidVelocity`, `rapidAxis`) | what one axis does to the minimum (`rapidAxis_spec`), chained over the four axes, with the error of the proportions, which are rounded to ten digits (`rapid_spec`); the witness is `G0X100Y50` on the default machine, with the speeds of its motors from C80 |
| C84 | `PulseGeneratorCircular`, `_adjust_velocity`, `__next__` | `helix_vel`: the speeds are those of one speed on the whole way, with an error of 1e-10 mm/s from the roundings; the uniform time reached after an event (`arcNow`) then gives the part of the way for all four axes, with an error of at most 1e-4 mm (`angle_near`, `other_near`) |
| C85 | nothing new | pauses: between two pulses no axis moves, so the way, in the sense of C84, grows by at most 0.52 mm (`HelixTimes.still_way`), while outside the two ramps of at most 9 s it grows at 1/61 mm/s or more (`HelixTimes.still`); at most 7 changes of direction (`arc_dirCount`); then as C66, with C78 |
| C86 | nothing new | the point of the circle has coordinates with squares in the ratio of the coordinates of the end, so it is in the quarter of the end, and, away from the borders, more than two steps from them (`point_away`); rounding to steps therefore keeps the quarter (`rnd_away`); the straight move makes up the difference, so the steps add up to those of the line (`fair_refstep`); induction over the program as in C78, buffer as in C85 |
| C87 | nothing new (the model of `pulses.py` at `F64`) | the computed real time of a pulse is within 5·10^-8 s of an exact time at which the exact profile has travelled to within 10^-7 s of the uniform time (`travel64`: backward error, because the inverse of the profile has infinite slope at both ends); doubling is exact, so in moves that reach their velocity `2V/a` is exactly twice the acceleration time (`fl_double`); the uniform times end with the profile up to 10^-7 s (`Facts64.ends`, by Cauchy–Schwarz for the computed length); the slope of the profile times the velocity of the axis is at most its limit (`Facts64.rate`); the run is followed event by event (`next64`, `run_times64`, `run_sorted64`, `run_state64`) |
| C88 | nothing new (`Model/HalVirtual` at `F64`) | the result of rounding is the nearest number of the format (`fl_nearest_up`), so that the time of the middle branch of `_to_accelerated_time` is at most `fl (2A + B)` without any tolerance (`acc64_range`); the gaps of C87 for the microseconds; two ways to compute a distance agree after rounding to ten decimals away from the middles (`countOf64`, `stepsOf64`); the chain of C71 with a back end that raises no exception for the moves that pass (`Carries`) |
| C89 | nothing new | the velocity of C83 respects the shares of the axes as they are computed (`rapid_share`); with shares of 0 and 1 no rounding is involved; a move whose velocities before acceleration are within the limits passes the check, also when it is short (`linear_limit_of`) |
| C90 | nothing new; the binary64 numbers of C58 | the angles computed with correctly rounded `sqrt`, division and `acos` are in the same quarters as the exact ones (`quart64`) and in the same order (`angles_order64`: different points of a quarter have angles further apart than the errors), so the numbers of pulses and the directions are those of exact arithmetic (`iters64`, `arc64_new`); the `assert` of the end point compares two equal roundings (`dist64`); only `int(...)` of the radius and of the start may lose a step, which the hypothesis `Survives` excludes, or which shifts the axis by one pulse along its way (`walk_off`) |
| C91 | nothing new | as C90; in addition the turn computed in binary64 is near the exact one (`arccos_holder`, `angle64_near`, `turn64_near`), the chord bounds it from below (`arc_chord`), and so the shares of the axes in the whole length are at least 9 / 10000 (`Pts64.shares`) and no velocity is rounded to zero; the number of pulses across the plane is the ceiling of a rounded product (`other64`, `ceil64`) |
| C92 | nothing new; the interpreter is that of C78 | the correction of the end (`circleEnd64`, `roundEnd64`), the check of the borders and the velocity of a flat arc (`arcLimit64`, `arcVelocity64`) in binary64; then C90 for the generator and C71 for the other lines, by induction over the program (`arcLine_matches64`, `arcProgram_matches64`) |
| C93 | nothing new; the interpreter is that of C86 | the corrected end in binary64 is within rounding of the circle, in the quarter of the programmed end (`adjust_point64`, `circleEnd_adjust64`, `aside_end64`); C90 for the arc and C71 for the straight rest add up to the programmed steps (`aside_refstep64`), by induction over the program (`anyLine_matches64`, `anyProgram_matches64`) |
| C94 | nothing new | any displacement is rounded to a whole number of steps up to 6e-11 mm (`roundTo_stepVal`, `stepVal_near`), and so is the difference of two (`steps_sub`); the point on the circle is bounded (`adjust_bound`); then the limits on adjusted speeds in binary64 (`limit64`, `arcLimit64`) and their checks; all other parts of the line fail with other messages (`Calm`) |
| C95 | nothing new | the number of steps is nearest up to 1e-7 (`roundTo_nearest`), the rounded displacement is that many steps (`stepVal_near`), so the generator exists, can be iterated and sends them (`linear64_new`, `linear64_done`, `train64`); the check of the table in the machine's numbers (`checkDelta_any64`) against the exact sum (`add_near64`) |
| C96 | safe_zero, G28 with `F64` numbers | one move of `safe_zero` from a state that matches the interpreter of C71 (`zero_step64`): the negated position is the number of steps exactly, so the sum is zero and on the table (`checkDelta64`), the velocity is accepted (`line_accepted64`); the two moves one after the other (`safeZero64`) |
| C97 | nothing new | interpreter of C57 with homing (`Spec/Jobs64.lean`); induction over the lines with `line_matches64` (C71) and C96 |
| C98 | nothing new | interpreter of C78 with homing, end switches working or not (`Spec/ArcJobs64.lean`); induction over the lines with `arcLine_matches64` (C92) and C96 |
| C99 | nothing new | `Played` and `Driver` of C65, interpreter of C97; `home64` gives that the moves of `safe_zero` are over the table, so that the lemmas of C72 (`doable_ends64`, `played_steps`) apply |
| C100 | nothing new | `Homes`, `SaneMachine` and `DecimalLimits` of C89; `M.Raises` over the moves of `safe_zero`, with the acceptance lemmas of C89; witness by `linear_manual` |
| C101 | nothing new | reachable positions are on the table (C09) and on whole steps (`reachable_onStep`), so the moves of `safe_zero` are not changed by rounding, end on the table, and are accepted (`zeroing_ok`); the speed is C100, the feed C18 |
| C102 | nothing new | `freshAt`, `runLines`, `ButFeed`: two runs side by side; no branch of `do_command` but M2/M30 reads or writes the stored feed (`M.Blind`, `execCmd_blind`), and only G1, G2 and G3 use the feed that was read |
| C103 | nothing new | `Twin`, `M.Par`: two runs side by side from states that differ in position, offset and history; every branch of `do_command` but G28, G90, M2 and M30 keeps them side by side. An accepted arc has the same end and the same generator from both places (`circleEnd_same`), though its check of the table reads the position |
| C104 | nothing new | `Shifted`, `M.Along`: as C103, for states in which the head is at the same place as seen from the local origin; the distance of an absolute move depends on that place only (`Shifted.delta`), and G92 keeps it the same in both |
| C105 | nothing new | the loop of `__calibrate_private` returns `False` only when the clock is past the limit (`loop_late`), and the limit is computed from the largest of the requested axes (`maxSize_le`); `C105_pulses` accounts for the length of the pulses |

## 3. Trusted base

* The Lean 4.33 kernel and Mathlib.  Axioms: `propext`, `Classical.choice`,
  `Quot.sound` only (checked with `#print axioms`).
* The hardware models of `Model/Gpio.lean` and `Model/Dma.lean`, written after the BCM2835
  manual: GPIO registers, DMA control blocks, and that a transfer paced by the PWM takes one
  microsecond per 16 bytes (the factor the code uses).  A pull resistor clocked by PUDCLK takes
  effect at once.  Addresses outside the buffer and the GPIO registers read as zero.
* The stepper driver of `Spec/Motor.lean`, written after the data sheets of the usual drivers.
* The model of the ADS1115 in `Spec/Ads.lean`, written after its data sheet.
* Concurrency of CPU and DMA: in calibration, streaming and watchdog the engine completes an
  arbitrary number of control blocks between any two actions of the CPU.
* The channel registers of `Model/DmaProto.lean`, after the manual.  A write to CONBLK_AD of a channel
  that is active or paused is without effect there (the manual forbids it).  `DMA_CS_DISDEBUG` of the
  code is bit 28, which in the manual is WAIT_FOR_OUTSTANDING_WRITES; neither bit matters here.
* The rules for the clock generator in `Spec/DmaProto.lean` (`ClockRules`), and PLLD with 500 MHz.
* The memory manager of the firmware in `Model/Process.lean` (`Vc.property`): it answers the four tags
  of the mailbox interface, and does not release memory that is locked.  `FirmwareOk` is what is
  expected of its choices.
* The correspondence between the Python text and the model; every model definition
  cites the lines it models and names its simplifications.

## 4. Disagreements between the code and the properties

Where a property turned out to be false of the code, the negation is proved with a concrete
witness (`*_refuted`) and the part that does hold is kept (`*_partial` or a restricted
quantifier).

* **C04** — `X1.2.3` matches the regular expression of a word, but `float('1.2.3')` raises
  `ValueError`, which `do_line` does not catch (`C04_refuted`).  The same holds for the `IOError` of
  a sensor that fails in the constructor of `Heater` (`C04_sensor_refuted`).  `C04_reported_partial`
  covers every other line but arcs and huge E moves.
* **C10** — `__adjust_circle` walks from quarter to quarter and leaves its loop when the next quarter
  is the one of the end, before it has checked the border it crosses to get there.  An arc that ends
  in the next quarter is not checked at all: `G2 X199 Y90 J-5` at (199, 100) is a half circle over
  X204 on a table of 200 mm (`C10_refuted`).
* **C11** — because of the first case of C34, `G3 X100 Y107.07 I-5 J-5` at (105, 105) sends a full
  circle, while `_position` becomes (100, 107.07): every later move starts from the wrong place and
  the area checks no longer mean anything (`C11_refuted`).  The length of a step of the extruder
  (1/150 mm) has no finite decimal expansion, so the position of E is not that of the motor
  (`C11_extruder_refuted`); `C11_drift_partial` bounds the difference.
* **C16** — the feed is not scaled by `G20` (gmachine.py:330): `F10` in inch mode is 10 mm/min, where
  other controllers take 10 inches per minute.  The property says what the code does.
* **C23, C24** — `Heater.__init__` starts its thread and then measures the temperature for a log
  message; if that measurement raises, the constructor fails although the thread is running and
  the machine has no reference to it.  The next `M104` starts a second controller for the same
  heater (`C23_refuted`) and `release()` leaves it running (`C24_refuted`).
* **C28** — `E` is not limited by the table.  With 10^10 mm of filament in a one step X move the
  X velocity rounds to 0 and the first call of the interpolation function divides by zero
  (`C28_refuted`).  The property is therefore stated for moves of up to 10 m per axis.
* **C32** — without automatic velocity adjustment a move that is too short to reach its feed
  gets the velocities `delta / acceleration_time`, computed from the length of the *path*, but
  the interpolation accelerates the fastest *axis*; on a diagonal the real peak speed is higher
  by the factor length/longest axis.  The check passes and the axis exceeds its limit
  (`C32_manual_refuted`: X11.52 Y15.36 F24000, Y reaches 240 mm/s with a limit of 200 mm/s).
  For arcs the same happens with automatic adjustment: a short arc gets one velocity for the arc
  and, if they move, for the third axis and the extruder, with no regard to their limits.
  `G2 X102 Z0.01 I1 F24000` is rejected with "out of maximum speed" (`C32_circular_refuted`).
* **C33** — for the same reason as in the first case the braking phase of a diagonal move is computed for the wrong
  distance: the last pulse of each axis is emitted while it is still moving
  (`C33_refuted`).
* **C34** — three ways to lose steps in an arc:
  * If the end lies before the start (seen clockwise) in the same quarter of the circle, the
    constructor finds a difference of four quarters and makes a full circle
    (`C34_back_in_quarter`).  `G3 X103 Y104 I-4 J-3` at (104, 103), an arc of 16 degrees, turns by
    360 degrees and ends where it started (`C34_refuted`), while `position()` is set to the end.
  * `Coordinates` rounds to 10 decimals, and the third axis and the extruder are given
    `delta * pulses_per_mm` pulses *rounded up* (`i >= total` with a float total).  One extruder step
    of 1/150 mm is 0.0066666667 mm, a little more than one step, and is sent as two pulses
    (`C34_extruder_refuted`).
  * In the planes YZ and ZX the axes have 100 and 400 pulses per mm.  The radius is rounded to the
    coarser step, the start is not, and may lie outside the circle (`C34_full_circle_refuted`: a full
    circle with K1.0025 ends two steps above its start; `C37_refuted`).
* **C35** — `__adjust_circle` puts the end on the circle along the ray of slope `b` from the centre,
  but computes the coordinate as `sqrt(r*r / (1 + abs(b)))` where `1 + b*b` is needed.  The point is on
  the circle but in another direction, unless the slope is 0, 1, -1 or infinite.
  `G2 X100 Y92 I-3 J-4` at (100, 100) makes an arc to (100.27, 92.22) and then a straight move of
  0.35 mm (`C35_refuted`).
* **C36** — three ways to fail.  `G2 X108.54 Y103.54 I5` at (100, 100): the end is put on the circle and
  rounded to steps, where its distance from the centre is 501 steps instead of 500, and the assertion
  "Wrong end point" ends the program (`C36_end_refuted`).  And
  for the same reason as in the third case of C34 the walk of the finer axis may leave the circle with the radius used
  for the square root: `math.sqrt` raises `ValueError` while the pulses are being generated, in
  `hal.move` after the engine may have been started (`C36_sqrt_refuted`: K1.0075).  A third way
  exists only in binary64 and follows from C58: `G2 I0.27 J0.1`, a full circle of radius 29 steps,
  is folded at 28 steps, its 115th X pulse is computed 30 steps from the centre, and the square root
  of a negative number is taken (`C36_binary64_refuted`).
* **C41** — after a failed measurement the worker executes `continue` without releasing the lock
  and blocks in its own `acquire` (a `threading.Lock` is not re-entrant): `stop()` never returns
  (`C41_refuted`), the machine cannot switch to another temperature or shut down.  The worker also
  keeps the lock when it leaves its loop, so a second `stop()` blocks
  (`C41_second_stop_refuted`).
* **C42** — for the same reason the `SENSOR_TIMEOUT_S` branch is dead code: the critical log entry
  is never written (`C42_refuted`).  The heater does stay off.
* **C54** — `ads111x.measure` takes its lock and releases it only on the normal path; an `IOError`
  of the bus leaves it held, and every later measurement blocks (`C54_refuted`).  (In addition,
  `thermistor.py` imports `ads111x` with an implicit relative import, which fails under Python 3;
  then every measurement is an `IOError`.)
* **C55, C56** — because of the exceptions of C04, a file or an interactive session can end without
  `release()`: the spindle keeps running (`C55_refuted`, `C56_refuted`).  In interactive mode so
  does the end of the input (`EOFError`).

* **C58** — the constructor of arcs counts with `round(radius * apm)` but folds at
  `int(radius * apm)`.  For 0.29 mm the product is 28.999999999999996 in binary64: 116 pulses are sent
  with turns at 28 steps, and a full circle ends 4 steps (0.04 mm) off on both axes
  (`C58_refuted`).  By the same computation the radii 0.57, 0.58, 1.13 to 1.16 mm and others are
  affected.  `position()` does not know.

### C64 — the virtual machine rejects accepted arcs

`hal_virtual.move` checks the pulses with assertions.  Straight moves pass
(`C64_linear_partial`, `C64_machine_partial`), but the arc of C34 (`G3 X103 Y104 I-4 J-3` at
(104, 103)), which `GMachine` accepts, stops it with an `AssertionError`
(`C64_circular_refuted`): its generator makes a full circle and the number of pulses is wrong.
The exception is neither a `GCodeException` nor a `GMachineException`, so it ends the program.

### C44 — streaming and errors

`C44_program` and `C44_stream` hold for calls that finish.  When `move` fails after
`run_stream` (a `MemoryError` for more than about 245000 pulses, or an exception of the
generator) nothing terminates the control block chain: `C44_error_overrun` shows that the engine
then continues with the blocks of earlier moves behind the new ones (or behind the end of the
buffer).  The same happens when the CPU is too slow, which `config.py` asks the user to exclude.

### C49, C50 — PWM

* **C49** — heater threads and the main thread call `add_pin`/`remove_pin` of one `DMAPWM` object
  without a lock.  `C49_removed_pin_driven_refuted`: a thread that adds a pin writes back a data
  word it has read before another thread removed its pin; the engine then drives the removed pin
  high for ever, and nothing in the dictionary allows to remove it again.
  `C49_stopped_high_refuted`: one thread removes the last pin and finds the dictionary empty,
  another one adds a pin and starts the engine, the first one stops it; the new pin stays at its
  level (100 % instead of 50 % for a heater).  `C49_locked_partial` shows that a lock around the
  read-modify-write sections and around test-and-stop is sufficient for all interleavings.
* **C50** — `remove_all` iterates over `self._clear_pins.keys()` while `remove_pin` deletes from the
  dictionary.  With Python 3 this raises `RuntimeError` after the first pin whenever a pin is
  registered (`C50_python3_refuted`); `deinit` then does not reach `gpio.clear` of spindle, fan and
  heaters and `watchdog.stop`.  With Python 2 `remove_all` is correct (`C50_python2_partial`).

### C52 — what calibration leaves behind

`C52_calibrate`, `C52_terminates` and `C52_no_error` prove the property.  Two neighbouring
expectations fail:

* When the time limit is reached, `__calibrate_private` returns `False` without `dma.stop()`
  (`hal.py:193`).  The engine still has up to a second of pulses in its buffer, so the axis goes on
  moving after the caller has been told that calibration failed (`C52_stopped_refuted`).
* `dma.stop()` aborts the engine wherever it is.  If that is between the two edges of a pulse, the
  step pin stays high after a successful calibration, and the next pulse of that motor is lost
  (`C52_pins_low_refuted`).

### C105 — the velocity of a calibration

The property holds.  Read from the code while stating it, not proved: the pulse rate is computed from the average
of the three pulses per mm (`hal.py:151-153`), so no axis need move with `CALIBRATION_VELOCITY_MM_PER_MIN`.  With
the settings of `config.py` (100, 100 and 400 pulses per mm, 300 mm/min) it is 1000 pulses per second, that is
600 mm/min along X and Y and 150 mm/min along Z.  The time limit is counted in pulses, so it is not affected.

### C67 — a glitch in `hal.init()`

`init` makes the power pins outputs first and clears their latches afterwards.  If a latch is still
set, which is how the watchdog leaves the pins (it makes them inputs and does not touch the latches),
the next start of the program turns the heater on between the two calls (`C67_glitch_refuted`).
`C67_quiet_partial` is the case of cleared latches.

### C68 — `hal.deinit()` with Python 3

As a consequence of C50, `deinit` raises `RuntimeError` with Python 3 whenever spindle or heater is on;
the fan keeps its state, and the watchdog is not stopped (`C68_python3_refuted`).  `GMachine.release`
switches spindle and heaters off before, so there it does not happen (`C68_release`, under the
condition of C24).

### C70 — `M84` cuts the move before it short

`M84` calls `hal.disable_steppers()` without `hal.join()`.  `hal.move` has only started the engine, so
the motors lose the rest of the move while `_position` is already at its end: for the program
`G1X10F600`, `M84` any number of steps from 0 to 1000 can be made (`C70_m84_refuted`).

### C71 — points half way between two steps

`Coordinates.round` divides by `1.0 / STEPPER_PULSES_PER_MM` and rounds.  `G1X0.235` asks for 23.5
steps, which both versions of Python round to 24, but 0.235 / 0.01 is 23.499999999999996 in binary64,
and the machine makes 23 steps (`C71_tie_refuted`).  Points that are at least a millionth of a step
away from the middle are not affected (`C71_program`).

### C74 — memory given back too late or too early

`CMAPhysicalMemory.__init__` registers `free` as its last statement.  When the firmware cannot lock the
memory, the exception comes before; the comment says the memory "should be freed in `__del__`", but
there is no `__del__`, and 30 MB are lost (`C74_lock_refuted`).

Only `hal.deinit()` stops the watchdog, and only `release()` calls it.  When the program ends with
`EOFError` or another exception that `main` does not catch (C55, C56), `atexit` gives the memory of the
watchdog back while its channel still runs there.  That is the case the watchdog is made for: it should
switch all pins off 15 s later.  It does if nobody uses the memory meanwhile; if the next owner clears it,
the channel reads an empty block and stops, and the spindle stays on (`C74_eof_refuted`).  After
`deinit` nothing of this kind can happen (`C74_quit_partial`).

### C76 — the last step of an axis may be too early

The circle has the radius of the start, rounded to steps (`_radius_a_pulses`, `_radius_b_pulses`).  When the end is at
another distance from the centre — up to half a step, as `get_pulses` cannot know better — the last
pulse of an axis is sent at the end of the turn whatever its position (pulses.py:618-619, 634-635), which
may be less than a full step behind its predecessor.
`C76_refuted`: with both axes limited to 1 mm/s the arc from (0, 0.08) to (0.06, 0.06) sends the last
two pulses of X less than 10 ms apart.  `C76_step_rate_partial` shows that half the distance is always
kept, and the full one for all other pulses.

### C77 — short arcs and small circles are too fast

For an arc that is too short to reach its speed `V`, pulses.py:546-559 shortens the acceleration time
and lowers `max_velocity_mm_per_sec`, but `_r_div_v`, the time scale of all pulses, was computed from
the old velocity (pulses.py:539) and is kept.  The uniform times then cover only a part of the
acceleration phase, and this phase leads to `V` in the shortened time: a quarter of a circle of radius
1 mm at 200 mm/s with 3000 mm/s² is finished in 19 ms, at full speed, where 46 ms are needed
(`C77_short_refuted`).

On long arcs the speed along the circle is accelerated as configured (`C77_acceleration_partial`), but
nothing limits the acceleration towards the centre, `V²/ρ`, which the motors have to provide as well.
On a full circle of radius 10 mm at 200 mm/s it is 4000 mm/s², and no motion of the X motor with
3000 mm/s² stays within two steps of its pulses (`C77_centre_refuted`).

Helices, and arcs with extrusion, do not come to rest at all.  The acceleration time is computed from the
fastest of the axes, the distance left for the uniform part likewise, but its duration from the speed on the
whole way.  So the way of the warped time is longer than the arc, all pulses are sent before it ends, and
the motors stop while they are still fast: one turn of radius 10 mm that climbs 60 mm at 100 mm/s stops at
about three quarters of its speed (`C77_rest_refuted`).

### C78 — arcs that the interpreter accepts and the machine does not make

`C78_program_partial` needs every accepted arc to be a `RightArc` (`Spec/ArcInterp.lean`).  Outside of
it the position and the motors may part: after `G1 X105 Y105`, `G3 X100 Y107.07 I-5 J-5`, an arc that
ends before its start in the same quarter, no state of the interpreter matches the machine
(`C78_refuted`, by the history of C10/C32).  An arc whose circle leaves the table may be refused though
its end is on the table, and an arc with extrusion adds the pulses of the extruder with the error of
C35; both are left out by `RightArc`.

### C79 — which points of an arc are checked

The loop of `__adjust_circle` goes from quarter to quarter and checks the border it crosses, but leaves
before the check when the next quarter is that of the end.  So the last border is never checked
(`C79_refuted`, `C10_refuted`), and an arc that crosses only one border not at all; all earlier ones
are (`C79_borders_partial`), and of a programmed full circle, whose end gets the number 5, all four
(`C79_full`).

The loop looks at the end before it is rounded to steps.  If that end lies in the quarter after that of
the start and is then rounded to the start, nothing is checked and the generator makes a full turn:
`G2 X200 Y99.99 I-0.5` at (0.9, 100), where an arc of less than half a degree is meant, takes the head
around (0.4, 100) to X-0.1 (`C79_turn_refuted`).

In the other direction the loop is too strict: an arc that ends in the quarter of its start, ahead of
it, crosses no border, but the loop visits all other quarters and checks three of them.  A short arc
next to the edge of the table is refused when its circle reaches beyond the edge.  (Nothing claims that
such arcs are accepted; `RightArc` of C78 asks for the whole circle to be on the table.)

### C80 — arcs that begin and end in the same quarter

An arc whose end lies before its start in the same quarter of the circle (counted clockwise) is a full
circle for the generator (see C34): the machine does not run along the programmed arc at all
(`C80_refuted`, witness `C34_refuted`: `G3` from (4, 3) to (3, 4) around the origin).

### C84 — the same arcs

For the arcs of C80 that the generator turns into full circles, there is no such part of the way
(`C84_refuted`).

### C81 — lags add up

`hal.move` keeps in `prev` when the last pulse *should* have ended, not when it ends.  A pulse planned
while the previous one is still high starts when that one ends, and the pause before the next one is
computed as if it had started in time.  So the whole rest of the move is late by the sum of all
overlaps (`C81_lag_partial`); nothing ever makes up for it.  In X40.6 Y40.59 (4060 and 4059 steps) the
motors step at nearly the same times, and nine pairs of pulses after the common first one cost 9 µs
(`C81_refuted`).
The TODO in the source says that pulses are queued instead of crossing, but not that the delay stays.
The lag slows all motors together, so the path is not affected; a move of N pulses takes at most 2·N µs
longer than planned (`C81_moves_partial`).

### C57 — a line that asks for ten thousand kilometres of filament

`G1X0.01E10000000000` is accepted by every check of `do_command`: the table limits X, Y and Z only.
The displacement is 10^7 m long, the share of X in the velocity is 10^-11 mm/s, and `Coordinates`
rounds that to zero.  The generator then divides by it when it computes the time of the only step of
X, so `hal.move` raises `ZeroDivisionError` before the first pulse (`C57_refuted`, from the text of
the line on; `C28_refuted` is the same of the generator alone).  The exception is none of those that
`do_line` catches.  C57, C66 and C71 therefore keep a bound on the extrusion of a line.

### C82, C66 — an extrusion that does not fit into the buffer

A move is written into a buffer of 30 MB, three or four control blocks of 32 bytes per pulse.  The code
does not check beforehand that the move fits.  `G1E3000` (3 m of filament, 450000 pulses) passes all
checks of the machine; in `hal.move`, `add_pulse` raises `MemoryError` when the buffer is full.  With
`INSTANT_RUN` (the default) the engine was started after the first 100 ms of pulses.  It goes on, and the
last block written points to the place behind it: neither `finalize_stream` nor `stop` is called, so the
engine goes on with whatever the memory holds there (`C82_refuted`).  `main.py` does not catch
`MemoryError` either: the program ends without `machine.release()`.  `C66_refuted` is the same move seen
from the reference interpreter, which accepts the line.  What C66 proves needs `longestMove c m` bytes;
the default buffer has room for extrusions of 780 mm beside a move over the whole table.
The model keeps the state from before the iteration that raises; the real program may have written one
more delay block before the exception.

### C83 — the cap on the speed of rapid moves

The `G0` branch starts its minimum with the largest of the four maximum velocities and lowers it for each
moving axis.  The speed of a diagonal move may well be larger than the largest limit of a single axis: at
26832 mm/min, `G0X100Y50` would have X at its limit of 24000 and Y at its limit of 12000.  The code
runs it at 24000 mm/min, with both axes at 89 % of their limits (`C83_refuted`).  Nothing goes wrong
but time is lost.  `C83_rapid_partial` says what the code does choose.  The proportions are those of the
programmed move; the move is rounded to steps afterwards, and the limits hold for the rounded
move because of the automatic adjustment (C30).

### C85 — big circles on fine machines

The control blocks of a whole move have to fit into the 30 MB buffer of the back end, although the engine
may already be reading them.  A straight move over the default table does, and every circle on it.  With 1000
steps per millimetre the biggest circle on the table does not, for any contents of the buffer and any speed of
the engine: `move` cannot return (`C85_room_refuted`; `C85_room` is the general bound, 96 bytes for each step
of one axis).  That such a `move` raises `MemoryError` with the engine running is C82.

### C86 — arcs whose ends are not on their circles

Numbers in G-code files are rounded, so an end is rarely on the circle.  `__adjust_circle` then takes a point
of the circle that is not the nearest to the end: the squares of its coordinates are in the ratio of the
coordinates of the end.  From there `_move_circular` makes a straight move, which may be long.  C86 shows that
nothing is lost on this way.  The reference interpreter cannot say which of these arcs are accepted, because
that depends on whether the rounded point has the rounded radius (`C36_end_refuted`); so the theorem is about
every outcome (`Follows`), and says which arcs are certainly accepted in one special case
(`C86_accepted_partial`).  The same arcs as in C78 are false (`C86_refuted`).

### C88 — distances that the virtual machine rejects

`hal_virtual.move` compares `round(i / STEPPER_PULSES_PER_MM, 10)` with the distance of the generator,
which `Coordinates.round` computed as `round(round(x / base) * base, 10)` with `base = 1.0 /
STEPPER_PULSES_PER_MM`.  When the distance is close to the middle of two ten-decimal numbers the two
roundings can differ.  For the default configuration they never do (the steps are decimal, or thirds of
a decimal for the extruder), but with 837 steps per millimetre `G1 E1024.737` stops the virtual machine
with `AssertionError` (`C88_refuted`).  The smallest such extrusion is beyond one metre, so that no test
of the repository meets one.

### C89 — rapid moves that are too fast for the machine's own check

`do_command` chooses the speed of `G0` for the direction of the programmed move.  `_move_linear` then
rounds the move to whole steps, which turns it a little.  With `AUTO_VELOCITY_ADJUSTMENT = False` the
velocity of an axis can be above its limit after that: `G0 X4.0049 Z2.9989` is carried out as X4 Z3 at
1001 mm/min, Z would need 600.6 mm/min, and the line is refused with "out of maximum speed"
(`C89_refuted`).  With the default setting the velocity is reduced instead (`C89_adjusted_partial`).

### C90 — arcs that drift in floating point

`PulseGeneratorCircular` rounds the numbers of pulses, but truncates the position where an axis starts
(`int(sa * apm)`).  `0.57 * 100` is `56.99999999999999`, so an axis that starts at step 57 is taken to start
at step 56.  It is sent the right number of pulses, but turns one pulse too late: an arc that turns an odd
number of times on this axis ends two steps beside its end (`C90_refuted`: clockwise from (0.57, 0.76) to
(0.76, -0.57)).  The position of the machine does not show it: `_move_circular` takes over the
programmed end.  At 100 steps per mm, 573 of the first 10000 positions are concerned.  If the radius is concerned the error
is larger, or there is an exception (`C58_refuted`, `C36_binary64_refuted`).  Everything else of the
generator (quarters, order of the angles, the `assert` of the end) is as in exact arithmetic.

### C91 — one pulse too many across the plane

The axis across the plane of an arc and the extruder are sent a pulse while `i` is less than
`abs(delta.z) * zpm`, which is not rounded.  `0.0175 * 400` is `7.000000000000001`: Z is sent 8 pulses where
7 are asked for (`C91_refuted`).  At 400 steps per mm this happens to 7, 14, 28, 55, 56, 109 ... steps.
`C34_extruder_refuted` is the same fault in exact arithmetic, where only the rounding of `Coordinates`
causes it.  Straight moves are not concerned: `PulseGeneratorLinear` rounds its number of pulses.

### C92 — a full circle that does not close

`G1X100Y100F600`, `G2J-0.29`: the second line is a full circle with a radius of 29 steps, the program is
right in exact arithmetic (`RightArcs`, C78), and both lines are accepted.  In binary64 `int(0.29 * 100)` is
28 (`pulses.py:377-380`); the axes turn round at the wrong pulses, the position reported is (100, 100), and the
motors are at (100.04, 99.96) (`C92_refuted`).  All later moves are off by these four steps.

### C93 — arcs with ends off their circles

The exact-arithmetic version is C86.  In binary64 the machine goes round to a point of the circle in the
quarter of the end (not the nearest one: the code divides by `1 + |b|`, not `1 + b²`), then straight to the end (`gmachine.py:141-186`, `188-245`); both parts add up to the programmed steps
although each is rounded.  The failure of C92 (`G2J-0.29`) is a failure of this claim too (`C93_refuted`).

### C94 — the speed check in binary64

The claim is about moves in the plane.  An arc that moves the third axis or the extruder as well is refused
even in exact arithmetic (`C32_circular_refuted`), since a short one gives every moving axis the speed of the
whole way (pulses.py:546-559).  Without automatic adjustment rapid moves are refused, too (`C89_refuted`).

### C95 — straight moves by any numbers

The programs of C71 keep away from the middle between two steps, so that the interpreter knows which step is
meant.  C95 drops this: for any displacement the motors make a nearest number of steps, position and motors
agree, and no line fails in another way than by one of the three messages.  An axis that does not move is never
the reason for a refusal when it was on the table.

### C96 — homing is refused when steps are not decimal numbers

Every position is rounded to ten decimals, and so is every displacement.  With 300 steps per millimetre a step
is written as 0.0033333333, two of them one after the other as 0.0066666666, but two at once as 0.0066666667.
After `G91`, `G1X0.0033`, `G1X0.0033` the line `G28` asks for the latter, which would end at -0.0000000001, and
is refused with "out of effective area" (`C96_refuted`, in binary64, for every rounding of halves).  Nothing is
moved and nothing is calibrated; moving by one step away from zero can help or not, depending on the digits.
`G1X0` in absolute mode is refused in the same way.  With decimal steps (default configuration: 100, 100 and 400
steps per millimetre) this cannot happen after straight moves (`C96_program_partial`).

### C100 — homing of Y alone uses the speed of X

`safe_zero` runs the move of a homing line for Y alone with `MAX_VELOCITY_MM_PER_MIN_X` (gmachine.py:256-258).
With `AUTO_VELOCITY_ADJUSTMENT = False` and the other default settings, where X may run at 24000 mm/min and Y at
12000, the line `G28Y0` after `G1Y100` is refused with "out of maximum speed"; the head stays and nothing is
calibrated (`C100_refuted`).  `G28` and `G28X0Y0` work.  With the default setting the velocity is reduced, and the
slip has no effect; on a machine whose Y is faster than X it only makes homing slower (`C100_homing_partial`).

### C102 — M2 and M30 do not reset the feed

`do_command` reads the feed into a local variable before it selects the command, and stores it again after the
command (gmachine.py:330 and 476).  For M2 and M30 this undoes what `reset` has done to `_velocity`: after `F100`
and `M2` the default machine is as just started but for its feed, which is 100 mm/min instead of 600
(`C102_refuted`).  The next program runs its moves at the feed of the previous one until it has an F word of its
own.  Nothing else is carried over (`C102_next_partial`).
