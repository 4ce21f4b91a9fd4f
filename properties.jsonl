{"id": "C01", "title": "Accepted lines are exactly the well-formed ones", "statement": "GCode.parse_line(line) returns a GCode object if and only if the line, after upper-casing and removal of white space and comments, is non-empty, does not start with '%', and is a concatenation of one or more words LETTER NUMBER ([-+]?[0-9.]+) with pairwise different letters and not both G and M; the returned object holds exactly these words. A line that is empty or starts with '%' gives None; every other line raises GCodeException, so no character of the input is silently dropped.", "quantifier": "all input strings of any length", "why_tests_cant": "the input space is infinite; unit tests try about twenty literals", "anchors": ["cnc/gcode.py:GCode.parse_line", "cnc/gcode.py:g_pattern", "cnc/gcode.py:clean_pattern"]}
{"id": "C02", "title": "White space and comments never change the meaning of a line", "statement": "Inserting white space or a closed '(...)' comment at any place outside a comment, or appending a ';...' comment, does not change the result of parse_line.", "quantifier": "all lines, all insertion positions, all comment texts", "why_tests_cant": "unbounded strings and positions", "anchors": ["cnc/gcode.py:clean_pattern", "cnc/gcode.py:GCode.parse_line"]}
{"id": "C03", "title": "Letter case never matters", "statement": "Two ASCII lines that differ only in letter case give the same result of parse_line.", "quantifier": "all pairs of ASCII lines", "why_tests_cant": "unbounded strings", "anchors": ["cnc/gcode.py:GCode.parse_line"]}
{"id": "C04", "title": "Every accepted line is executed or reported", "statement": "For each line accepted by parse_line, do_command either performs the command or raises GMachineException (which main reports as 'ERROR ...'); in particular a malformed number never escapes as another exception.", "quantifier": "all accepted lines, all machine states", "why_tests_cant": "needs all number spellings; the tests only use well formed numbers", "anchors": ["cnc/gcode.py:GCode.get", "cnc/gmachine.py:GMachine.do_command", "cnc/main.py:do_line"]}
{"id": "C05", "title": "Lines without a command have no effect", "statement": "A blank, comment-only or '%' line leaves every observable of the machine unchanged, calls nothing in the HAL and answers plain OK; a word-only line that names neither a command nor a coordinate changes only the feed rate.", "quantifier": "all such lines, all machine states", "why_tests_cant": "unbounded strings and states", "anchors": ["cnc/gcode.py:GCode.parse_line", "cnc/gmachine.py:GMachine.do_command"]}
{"id": "C06", "title": "Coordinate sums and differences do not drift", "statement": "Coordinates addition and subtraction of positions that are decimal numbers with at most 10 fractional digits is exact: (a + b) - b == a and the sum is the true sum, so repeated moves accumulate no rounding error; this holds both for exact arithmetic and for IEEE binary64 with its rounding for magnitudes up to 100000 mm.", "quantifier": "all coordinate vectors in range, all lengths of move sequences", "why_tests_cant": "rounding depends on every bit pattern; tests sample a few values", "anchors": ["cnc/coordinates.py:Coordinates.__init__", "cnc/coordinates.py:Coordinates.__add__", "cnc/coordinates.py:Coordinates.__sub__"]}
{"id": "C07", "title": "Rounding to steps picks a nearest step", "statement": "Coordinates.round(base...) returns on every axis a multiple of the base (up to the tenth digit) at distance at most base/2 (plus 10^-10/2), is idempotent, monotone and leaves step multiples unchanged.", "quantifier": "all values and all positive bases", "why_tests_cant": "continuum of values", "anchors": ["cnc/coordinates.py:Coordinates.round"]}
{"id": "C08", "title": "The table test is exactly membership in the box", "statement": "is_in_aabb(p1, p2) is true if and only if each of x, y, z lies between the corresponding values of p1 and p2 (inclusive), whatever the order of the two corner points, and never depends on E.", "quantifier": "all points and boxes", "why_tests_cant": "continuum of values", "anchors": ["cnc/coordinates.py:Coordinates.is_in_aabb"]}
{"id": "C09", "title": "The machine position never leaves the table", "statement": "After every history of API calls (commands that succeed, commands that are rejected, homing, reset, failing hardware calls) position() has X, Y, Z inside [0, TABLE_SIZE].", "quantifier": "all finite histories of commands, all HAL behaviours", "why_tests_cant": "unbounded histories", "anchors": ["cnc/gmachine.py:GMachine.__check_delta", "cnc/gmachine.py:GMachine._move_linear", "cnc/gmachine.py:GMachine._move_circular"]}
{"id": "C10", "title": "The head never leaves the table during a move", "statement": "While a successful command is executed the head stays inside the table after every single step pulse, not only at the end of the move.", "quantifier": "all commands, all reachable states, all intermediate pulses", "why_tests_cant": "path constraint over every pulse of every move", "anchors": ["cnc/gmachine.py:GMachine.__adjust_circle", "cnc/gmachine.py:GMachine._move_circular", "cnc/gmachine.py:GMachine._move_linear"]}
{"id": "C11", "title": "position() is where the motors really are", "statement": "After every history of successful commands position() multiplied by the pulses per mm equals the net number of step pulses (forward minus reverse) that was sent to each motor.", "quantifier": "all finite histories", "why_tests_cant": "needs the sum over every pulse of every move of any history", "anchors": ["cnc/gmachine.py:GMachine._move_linear", "cnc/gmachine.py:GMachine._move_circular", "cnc/pulses.py:PulseGenerator.next"]}
{"id": "C12", "title": "Absolute moves end at the programmed point", "statement": "In absolute mode a successful G0/G1/implicit move puts each axis that is named in the line at the step nearest to value*unit + local offset, and leaves each axis that is not named where it was.", "quantifier": "all lines, all reachable states", "why_tests_cant": "continuum of values and modal states", "anchors": ["cnc/gmachine.py:GMachine.do_command", "cnc/gcode.py:GCode.coordinates"]}
{"id": "C13", "title": "Relative moves move by the programmed distance", "statement": "In relative mode a successful G0/G1/implicit move changes each axis by the step multiple nearest to value*unit (0 when not named), independently of the local coordinate system.", "quantifier": "all lines, all reachable states", "why_tests_cant": "continuum of values and modal states", "anchors": ["cnc/gmachine.py:GMachine.do_command"]}
{"id": "C14", "title": "Arcs end at the programmed point", "statement": "A successful G2/G3 ends at exactly the same position as a G1 with the same coordinate words would.", "quantifier": "all arcs, planes, directions, reachable states", "why_tests_cant": "continuum of arcs", "anchors": ["cnc/gmachine.py:GMachine._move_circular"]}
{"id": "C15", "title": "G92 renames the current point and moves nothing", "statement": "After a successful G92 the machine position is unchanged and the logical coordinates of the current point are the values given in the line (unchanged for axes not named, all zero for a bare G92); G53 makes logical and machine coordinates equal again.", "quantifier": "all lines, all reachable states", "why_tests_cant": "continuum of values and unbounded histories", "anchors": ["cnc/gmachine.py:GMachine.do_command"]}
{"id": "C16", "title": "Inch mode is a pure unit change", "statement": "A line executed in inch mode has exactly the effect of the same line in millimetre mode with each coordinate and radius word multiplied by 25.4; F, S and P words are not scaled.", "quantifier": "all lines, all states", "why_tests_cant": "continuum of values", "anchors": ["cnc/gmachine.py:GMachine.do_command", "cnc/gcode.py:GCode.get"]}
{"id": "C17", "title": "A rejected command changes nothing", "statement": "If do_command raises GMachineException, no observable of the machine (position, feed, spindle speed, modes, offsets, fan, heaters) has changed and no actuator was commanded; the only exception is G28, whose homing moves have been done when calibration fails.", "quantifier": "all commands, all states, all HAL behaviours", "why_tests_cant": "all error paths from all states", "anchors": ["cnc/gmachine.py:GMachine.do_command", "cnc/gmachine.py:GMachine._move_circular", "cnc/gmachine.py:GMachine._heat"]}
{"id": "C18", "title": "Feed rate is modal and never below the minimum", "statement": "Each successful command with an F word makes it the feed of later commands, one without F keeps the old one (M2/M30 included), a failing command never changes it, and the stored feed is at least MIN_VELOCITY_MM_PER_MIN in every reachable state; an F below the minimum is rejected whatever the command.", "quantifier": "all histories", "why_tests_cant": "unbounded histories", "anchors": ["cnc/gmachine.py:GMachine.do_command"]}
{"id": "C19", "title": "Modal state changes only by its own commands", "statement": "The plane is changed only by G17/G18/G19/M2/M30, the units only by G20/G21/M2/M30, absolute/relative mode only by G90/G91/M2/M30, the local offset only by G53/G92/M2/M30, the position only by G0-G3/G28 (or an implicit move); M2/M30 restore the default plane, units, mode, offset and spindle speed and never move the head.", "quantifier": "all lines, all states", "why_tests_cant": "frame condition over every command string", "anchors": ["cnc/gmachine.py:GMachine.do_command", "cnc/gmachine.py:GMachine.reset"]}
{"id": "C20", "title": "Unknown commands are rejected without effect", "statement": "A G or M word that is not in the documented command list is rejected with 'unknown command' without any effect.", "quantifier": "all command strings", "why_tests_cant": "infinitely many command strings", "anchors": ["cnc/gmachine.py:GMachine.do_command"]}
{"id": "C21", "title": "Spindle power is always a percentage in range", "statement": "Every value passed to hal.spindle_control in every history lies in 0..100, is 100*rpm/SPINDLE_MAX_RPM for the last accepted speed, is preceded by a hal.join, and an S outside 0..SPINDLE_MAX_RPM is rejected.", "quantifier": "all histories", "why_tests_cant": "unbounded histories", "anchors": ["cnc/gmachine.py:GMachine._spindle", "cnc/gmachine.py:GMachine.do_command"]}
{"id": "C22", "title": "Heaters are only ever started with a safe target", "statement": "In every history every heater is started with a target temperature between MIN_TEMPERATURE and the maximum of that heater; S0 switches off; anything else is rejected before the heater is touched.", "quantifier": "all histories, all HAL behaviours", "why_tests_cant": "unbounded histories", "anchors": ["cnc/gmachine.py:GMachine._heat", "cnc/gmachine.py:GMachine.do_command"]}
{"id": "C23", "title": "At most one controller per heater", "statement": "In every history a new heater controller is started only after the previous one of the same heater has been stopped, so never two controllers drive one heater.", "quantifier": "all histories, all HAL behaviours", "why_tests_cant": "unbounded histories and sensor faults", "anchors": ["cnc/gmachine.py:GMachine._heat", "cnc/heater.py:Heater.__init__"]}
{"id": "C24", "title": "release() switches everything off", "statement": "When release() returns, the spindle is at 0, every heater controller that was ever started has been stopped, the fan is off and the HAL is de-initialised, whatever happened before.", "quantifier": "all histories, all HAL behaviours", "why_tests_cant": "unbounded histories and sensor faults", "anchors": ["cnc/gmachine.py:GMachine.release", "cnc/gmachine.py:GMachine._heat"]}
{"id": "C25", "title": "Homing ends at zero and calibrates exactly the requested axes", "statement": "A successful G28 calibrates exactly the axes named in the line (all three if none is named) after the motion finished, leaves these axes at 0 and all others where they were; a failed calibration is reported.", "quantifier": "all axis combinations, all reachable positions, all HAL behaviours", "why_tests_cant": "needs every reachable position to be a step multiple", "anchors": ["cnc/gmachine.py:GMachine.safe_zero", "cnc/gmachine.py:GMachine.do_command"]}
{"id": "C26", "title": "Fan state is what was last commanded", "statement": "fan_state() always equals the value last passed to hal.fan_control (False before any), and starting the extruder heater with AUTO_FAN_ON turns the fan on before the heater starts.", "quantifier": "all histories", "why_tests_cant": "unbounded histories", "anchors": ["cnc/gmachine.py:GMachine._fan", "cnc/gmachine.py:GMachine._heat"]}
{"id": "C27", "title": "Queries and dwell have no side effects", "statement": "M105, M114 and G4 change no machine state (except the feed when F is given), G4 waits for the motors, sleeps exactly P seconds and rejects a missing or negative P; M114 reports position().", "quantifier": "all states and lines", "why_tests_cant": "all states", "anchors": ["cnc/gmachine.py:GMachine.do_command"]}
{"id": "C28", "title": "A linear move emits exactly the requested pulses", "statement": "Iterating the generator of a linear move emits, for each axis, exactly round(|delta|*pulses_per_mm) step pulses, all in the direction of delta, with exactly one direction announcement before the first pulse, and then stops.", "quantifier": "all linear moves with ten digit decimal coordinates, each moving axis moving between 1/1000 mm and 10 m, at any feed of at least 1 mm/min, for all configurations with up to 1000 pulses/mm, acceleration at least 1 mm/s^2 and maximum velocities of 60..600000 mm/min", "why_tests_cant": "continuum of moves, unbounded pulse counts", "anchors": ["cnc/pulses.py:PulseGeneratorLinear", "cnc/pulses.py:PulseGenerator.next"]}
{"id": "C29", "title": "Pulse times are ordered and simultaneous pulses coincide", "statement": "In a linear move the times of successive pulse events never decrease, pulses of one event carry the same time, the times of successive pulses of the same axis strictly increase, and all times lie between 0 and total_time_s().", "quantifier": "all linear moves with ten digit decimal coordinates, each moving axis moving between 1/1000 mm and 10 m, at any feed of at least 1 mm/min, for all configurations with up to 1000 pulses/mm, acceleration at least 1 mm/s^2 and maximum velocities of 60..600000 mm/min", "why_tests_cant": "continuum of moves, unbounded pulse counts", "anchors": ["cnc/pulses.py:PulseGenerator.next", "cnc/pulses.py:PulseGenerator._to_accelerated_time"]}
{"id": "C30", "title": "No axis is ever stepped faster than its maximum velocity", "statement": "With automatic velocity adjustment, in every linear move two successive step pulses of the same axis are at least 1/(pulses_per_mm * max_velocity) apart in time, including during acceleration and braking.", "quantifier": "all linear moves with ten digit decimal coordinates, each moving axis moving between 1/1000 mm and 10 m, at any feed of at least 1 mm/min, for all configurations with up to 1000 pulses/mm, acceleration at least 1 mm/s^2 and maximum velocities of 60..600000 mm/min that are ten digit decimals in mm/s; all pairs of successive pulses", "why_tests_cant": "continuum of moves; every pair of successive pulses", "anchors": ["cnc/pulses.py:PulseGenerator._adjust_velocity", "cnc/pulses.py:PulseGenerator._to_accelerated_time"]}
{"id": "C31", "title": "Linear moves follow the straight line within one step", "statement": "After every event of a linear move the vector of pulses done so far is within one step per axis of a point on the straight segment from start to end (plus at most 10^-10 mm per second of the move, because velocities are rounded to ten digits).", "quantifier": "all linear moves with ten digit decimal coordinates, each moving axis moving between 1/1000 mm and 10 m, at any feed of at least 1 mm/min, for all configurations with up to 1000 pulses/mm, acceleration at least 1 mm/s^2 and maximum velocities of 60..600000 mm/min; all prefixes of the pulse train", "why_tests_cant": "unbounded pulse counts", "anchors": ["cnc/pulses.py:PulseGeneratorLinear._interpolation_function", "cnc/pulses.py:PulseGenerator.next"]}
{"id": "C32", "title": "Velocity limit check", "statement": "With automatic velocity adjustment a move is never rejected for 'out of maximum speed', and the speed of every axis is at most its limit; without it a move is rejected exactly when one axis would exceed its limit, and an accepted move is not slowed down.", "quantifier": "all moves and feeds", "why_tests_cant": "continuum of moves", "anchors": ["cnc/pulses.py:PulseGenerator._adjust_velocity", "cnc/gmachine.py:GMachine.__check_velocity"]}
{"id": "C33", "title": "Acceleration limit", "statement": "During a linear move the fastest axis never accelerates or brakes faster than STEPPER_MAX_ACCELERATION_MM_PER_S2, and the move starts and ends at rest.", "quantifier": "all linear moves", "why_tests_cant": "continuum of moves", "anchors": ["cnc/pulses.py:PulseGenerator._to_accelerated_time", "cnc/pulses.py:PulseGeneratorLinear.__init__"]}
{"id": "C34", "title": "A circular move emits exactly the pulses to its end point", "statement": "Iterating the generator of a circular move sends each axis a net number of pulses equal to delta*pulses_per_mm; in particular a full circle returns every axis to its start.", "quantifier": "all arcs, planes, directions", "why_tests_cant": "continuum of arcs", "anchors": ["cnc/pulses.py:PulseGeneratorCircular", "cnc/hal_virtual.py:move"]}
{"id": "C35", "title": "The end of an arc is put on the circle", "statement": "If the programmed end point of an arc lies on the circle, the arc ends there and no additional straight move is made.", "quantifier": "all arcs", "why_tests_cant": "continuum of arcs", "anchors": ["cnc/gmachine.py:GMachine.__adjust_circle"]}
{"id": "C36", "title": "Arc generation never crashes", "statement": "For every arc that passes the machine's checks, building and iterating the pulse generator raises no exception.", "quantifier": "all arcs, planes, directions", "why_tests_cant": "continuum of arcs", "anchors": ["cnc/pulses.py:PulseGeneratorCircular.__init__", "cnc/pulses.py:PulseGeneratorCircular.__circular_a"]}
{"id": "C37", "title": "Axis positions of an arc stay on the circle's extent", "statement": "During a circular move each circular axis oscillates between -radius and +radius around the centre: the position after i pulses is the i-th point of the triangle wave that starts at the start point, one step per pulse.", "quantifier": "all arcs, all pulse numbers", "why_tests_cant": "unbounded pulse counts", "anchors": ["cnc/pulses.py:PulseGeneratorCircular.__circular_helper"]}
{"id": "C38", "title": "PID output is a fraction", "statement": "Pid.update always returns a value in 0..1, for every history of measurements and times, and the integral part never exceeds the windup limit in magnitude.", "quantifier": "all histories of measurements and time stamps", "why_tests_cant": "unbounded histories", "anchors": ["cnc/pid.py:Pid.update"]}
{"id": "C39", "title": "Target reached means held for the fix time", "statement": "is_fixed() becomes true only after all updates of a period longer than FIX_TIME_S were within FIX_ACCURACY of the target with less than full power, and once true it stays true.", "quantifier": "all histories", "why_tests_cant": "unbounded histories", "anchors": ["cnc/pid.py:Pid.update", "cnc/pid.py:Pid.is_fixed"]}
{"id": "C40", "title": "No heating after stop()", "statement": "Once Heater.stop() has returned, the control method is never again called, and its last call was with 0, under every interleaving of the worker thread with the caller.", "quantifier": "all schedules of the two threads, all sensor behaviours", "why_tests_cant": "scheduling non-determinism", "anchors": ["cnc/heater.py:Heater.run", "cnc/heater.py:Heater.stop"]}
{"id": "C41", "title": "stop() always returns", "statement": "Under every schedule in which threads keep running, Heater.stop() eventually acquires the lock and returns, also after sensor faults.", "quantifier": "all fair schedules, all sensor behaviours", "why_tests_cant": "scheduling and fault non-determinism", "anchors": ["cnc/heater.py:Heater.run", "cnc/heater.py:Heater.stop"]}
{"id": "C42", "title": "A sensor fault switches the heater off", "statement": "After a failed measurement the next control call is control(0), and heating does not resume before a successful measurement; after more than SENSOR_TIMEOUT_S without data the controller stops with a critical log entry.", "quantifier": "all schedules, all sensor behaviours", "why_tests_cant": "fault timing", "anchors": ["cnc/heater.py:Heater.run"]}
{"id": "C43", "title": "Heater power is a percentage", "statement": "Every value passed to the heater control method lies in 0..100.", "quantifier": "all histories of measurements", "why_tests_cant": "unbounded histories", "anchors": ["cnc/heater.py:Heater.run", "cnc/pid.py:Pid.update"]}
{"id": "C44", "title": "The DMA program replays exactly the generated pulses", "statement": "Following the control block chain that hal_raspberry.move builds, the DMA engine performs, in order, exactly the direction changes and step pulses of the generator on the right pins, and then stops.", "quantifier": "all event sequences that fit in the buffer", "why_tests_cant": "unbounded sequences", "anchors": ["cnc/hal_raspberry/hal.py:move", "cnc/hal_raspberry/rpgpio.py:DMAGPIO"]}
{"id": "C45", "title": "DMA pulses are never early", "statement": "In the DMA program each pulse starts at round(t*10^6) microseconds after the start when successive pulses are at least the pulse length apart, and never earlier.", "quantifier": "all event sequences", "why_tests_cant": "unbounded sequences", "anchors": ["cnc/hal_raspberry/hal.py:move"]}
{"id": "C46", "title": "DMA buffer writes stay inside the buffer and behind the running program", "statement": "No add_* call writes outside the allocated buffer (MemoryError is raised instead), and while a previous sequence is running move() never overwrites a control block that was not executed yet.", "quantifier": "all sequences, all progress schedules of the DMA engine", "why_tests_cant": "unbounded sequences and hardware progress", "anchors": ["cnc/hal_raspberry/rpgpio.py:DMAGPIO.add_pulse", "cnc/hal_raspberry/hal.py:move"]}
{"id": "C47", "title": "GPIO calls touch only their pin", "statement": "GPIO.init changes only the three function bits of its pin; set/clear/read address exactly the bit of the pin.", "quantifier": "all pins, all register contents", "why_tests_cant": "2^32 register contents", "anchors": ["cnc/hal_raspberry/rpgpio.py:GPIO"]}
{"id": "C48", "title": "PWM keeps exactly the registered pins", "statement": "After every sequence of add_pin/remove_pin calls the PWM waveform of each pin is high for floor(duty*256/100) of 256 slots as last set, pins do not influence each other, a removed pin is low and is never driven again, and the DMA is stopped when no pin is left.", "quantifier": "all call sequences", "why_tests_cant": "unbounded sequences", "anchors": ["cnc/hal_raspberry/rpgpio.py:DMAPWM"]}
{"id": "C49", "title": "PWM is safe to use from several threads", "statement": "Concurrent add_pin/remove_pin calls for different pins (heater threads and the main thread) have the same final effect as executing them one after the other; in particular a pin removed by its owner is not driven afterwards.", "quantifier": "all interleavings", "why_tests_cant": "scheduling non-determinism", "anchors": ["cnc/hal_raspberry/rpgpio.py:DMAPWM.add_pin", "cnc/hal_raspberry/rpgpio.py:DMAPWM.remove_pin"]}
{"id": "C50", "title": "remove_all leaves no PWM pin", "statement": "DMAPWM.remove_all removes every pin and stops the PWM, on every supported Python version.", "quantifier": "all PWM states", "why_tests_cant": "all states, both dictionary semantics", "anchors": ["cnc/hal_raspberry/rpgpio.py:DMAPWM.remove_all", "cnc/hal_raspberry/hal.py:deinit"]}
{"id": "C51", "title": "The watchdog switches all pins off exactly when it is not fed", "statement": "If the watchdog is fed at least once in every period shorter than its delay chain, the final block never executes; if feeding stops it executes after at most the whole chain and turns GPIO 0..29 into inputs.", "quantifier": "all feeding schedules", "why_tests_cant": "unbounded schedules", "anchors": ["cnc/hal_raspberry/rpgpio.py:DMAWatchdog", "cnc/watchdog.py:HardwareWatchdog"]}
{"id": "C52", "title": "Endstop calibration steps only requested axes and only until their endstop", "statement": "Calibration pulses only requested axes, stops pulsing an axis once its endstop was read as triggered three times in a row, returns True only if all requested endstops triggered, and always terminates.", "quantifier": "all endstop signal histories", "why_tests_cant": "unbounded signal histories", "anchors": ["cnc/hal_raspberry/hal.py:__calibrate_private"]}
{"id": "C53", "title": "Thermistor reading never yields a bogus value", "statement": "For every ADC code get_temperature either raises IOError (open or short circuit) or returns a finite temperature above absolute zero that strictly decreases with the voltage.", "quantifier": "all ADC codes and, beyond, all voltages", "why_tests_cant": "monotonicity over a continuum", "anchors": ["cnc/sensors/thermistor.py:get_temperature", "cnc/sensors/ads111x.py:measure"]}
{"id": "C54", "title": "ADC access stays available after an I/O error", "statement": "After a failed measurement a later ads111x.measure call still returns a value or an error, it never blocks forever.", "quantifier": "all fault histories", "why_tests_cant": "fault timing", "anchors": ["cnc/sensors/ads111x.py:measure"]}
{"id": "C55", "title": "File mode stops at the first error and always releases the machine", "statement": "Running a file executes its lines in order up to and including the first line that fails, none after it, and then always calls release().", "quantifier": "all files, all HAL behaviours", "why_tests_cant": "unbounded files", "anchors": ["cnc/main.py:main", "cnc/main.py:do_line"]}
{"id": "C56", "title": "Interactive mode survives any line", "statement": "In interactive mode any line is answered with OK or ERROR and the session continues until quit/exit; then release() is called.", "quantifier": "all input sequences", "why_tests_cant": "unbounded sequences", "anchors": ["cnc/main.py:main", "cnc/main.py:do_line"]}
{"id": "C57", "title": "A long G-code program behaves like its reference interpretation", "statement": "For every sequence of linear-motion, mode and offset lines the machine behaves like a simple reference interpreter that keeps an integer step position, a unit, an offset and a mode.", "quantifier": "all programs of any length", "why_tests_cant": "unbounded programs", "anchors": ["cnc/gmachine.py:GMachine.do_command"]}
{"id": "C58", "title": "Binary64 pulse counting is exact", "statement": "With IEEE binary64 arithmetic instead of exact reals the number of pulses of a linear move still equals the number of steps requested, for all moves up to 10^6 steps; for circular moves the conversion of radius and start point to pulses is exact too.", "quantifier": "all step counts in range", "why_tests_cant": "every bit pattern", "anchors": ["cnc/pulses.py:PulseGeneratorLinear.__init__", "cnc/pulses.py:PulseGeneratorCircular.__init__"]}
{"id": "C59", "title": "wait() returns only on a held target", "statement": "Heater.wait() returns only when the worker's measurements contain a period longer than FIX_TIME_S in which all of them were within FIX_ACCURACY of the target with less than full power.", "quantifier": "all schedules of the two threads, all sensors and clocks", "why_tests_cant": "scheduling non-determinism and unbounded histories", "anchors": ["cnc/heater.py:Heater.wait", "cnc/pid.py:Pid.update"]}
{"id": "C60", "title": "The temperature formula inverts the sensor circuit", "statement": "For every temperature t above absolute zero: the voltage of the divider of the reference resistor and a beta-model thermistor at t degrees is converted back to exactly t.", "quantifier": "all temperatures", "why_tests_cant": "continuum of temperatures; a wrong constant or a swapped divider changes all of them", "anchors": ["cnc/sensors/thermistor.py:get_temperature"]}
{"id": "C61", "title": "Number words mean their decimal value", "statement": "The number read from a word is the value of its decimal notation (sign, integer part, fraction), and reading fails exactly for the texts of signs, digits and points that are no decimal number.", "quantifier": "all words accepted by the parser", "why_tests_cant": "unbounded set of spellings", "anchors": ["cnc/gcode.py:GCode.get", "cnc/gcode.py:g_pattern"]}
{"id": "C62", "title": "A measurement is the requested conversion", "statement": "A value returned by ads111x.measure(channel) is the result of one conversion that this call started, of the requested input against ground in the 4.096 V range, read after the conversion had ended and scaled for this range.", "quantifier": "all channels, all conversion times and results, all histories of the chip", "why_tests_cant": "needs the chip; unbounded polling", "anchors": ["cnc/sensors/ads111x.py:measure"]}
{"id": "C63", "title": "The angle of a point of an arc", "statement": "PulseGeneratorCircular.__angle(a, b) computed in IEEE binary64 raises no exception for any pair of numbers that are not both zero (in particular rounding never pushes the argument of acos beyond 1) and its result lies between 0 and 2*pi; for the centre itself it raises ZeroDivisionError.", "quantifier": "all pairs of binary64 numbers", "why_tests_cant": "2^128 pairs; rounding of the quotient of nearly equal numbers", "anchors": ["cnc/pulses.py:PulseGeneratorCircular.__angle"]}
{"id": "C64", "title": "The virtual machine accepts what the machine sends it, and only correct pulse trains", "statement": "hal_virtual.move raises no exception for any move that GMachine hands to it; and whenever it raises none, the pulse generator ended normally, announced directions first, sent every axis a net number of pulses that rounds to its distance, in strictly increasing microseconds, with all pulses of one event in the same microsecond, none after total_time_s(), and a straight move in the direction of its distance.", "quantifier": "all moves, all generators, all configurations", "why_tests_cant": "continuum of moves; the assertions are the tests' oracle and their own soundness is not tested", "anchors": ["cnc/hal_virtual.py:move"]}
{"id": "C65", "title": "The motors make the steps of the generators", "statement": "On the Raspberry Pi back end, whatever history of G-code the machine has executed (straight moves and arcs) and whether the DMA engine was started early or not: when the moves have been carried out, the stepper driver of each axis, which samples its direction input at each rising edge of its step input, has made exactly the steps that the pulse generators emitted, forward minus reverse and counted along the axis (inverted motors included), and its step input is low. The position that the machine reports is then where the drivers are, under the conditions of C11.", "quantifier": "all histories of commands, all pin assignments in the first bank without double use, all buffers, all schedules of the engine, all initial memory contents", "why_tests_cant": "hardware in the loop; unbounded histories; interleavings of writer and engine", "anchors": ["cnc/hal_raspberry/hal.py:move", "cnc/hal_raspberry/rpgpio.py:DMAGPIO", "cnc/pulses.py:PulseGenerator", "cnc/gmachine.py:GMachine"]}
{"id": "C66", "title": "From the text of a program to the microsteps", "statement": "hal.move of the Raspberry Pi back end returns without an exception (MemoryError, struct.error) for every ordinary straight move for which the buffer has 128 bytes per step, for every earlier contents of the buffer, if the engine finishes its earlier program; and for every program of straight moves, modes, units and offsets, given as text, the moves can be carried out, and whenever they have been, the driver of each motor has made exactly the steps that a reference interpreter of the program computes.", "quantifier": "all programs of that kind, all moves, all schedules", "why_tests_cant": "unbounded programs; hardware in the loop", "anchors": ["cnc/main.py:do_line", "cnc/gcode.py:GCode", "cnc/gmachine.py:GMachine.do_command", "cnc/pulses.py:PulseGeneratorLinear", "cnc/hal_raspberry/hal.py:move", "cnc/hal_raspberry/rpgpio.py:DMAGPIO"]}
{"id": "C67", "title": "hal.init() configures the pins and nothing else", "statement": "From any state of the GPIO registers hal.init() of the Raspberry Pi back end makes the pins of motors, spindle, fan, heaters and the enable line outputs, makes the end stops inputs with pull-up resistors, leaves spindle, fan and heaters off and the motors enabled, keeps the levels of the motor pins, changes the function and resistor of no other pin, and starts the watchdog; and at no moment during the call is the pin of the spindle, the fan or a heater driven high.", "quantifier": "all register states, all pin assignments in the first bank without double use, all moments during the call", "why_tests_cant": "no hardware in the tests; all register states", "anchors": ["cnc/hal_raspberry/hal.py:init", "cnc/hal_raspberry/rpgpio.py:GPIO.init"]}
{"id": "C68", "title": "hal.deinit() switches everything off", "statement": "After any use of spindle, heaters, fan and motors since hal.init(), hal.deinit() raises no exception and leaves spindle, fan and heaters off, the motors disabled, and the PWM engine and the watchdog stopped; in particular at the end of GMachine.release() after any history of G-code.", "quantifier": "all histories of calls and commands, all positions of the PWM engine, Python 2 and 3", "why_tests_cant": "no hardware in the tests; unbounded histories", "anchors": ["cnc/hal_raspberry/hal.py:deinit", "cnc/hal_raspberry/rpgpio.py:DMAPWM.remove_all", "cnc/gmachine.py:GMachine.release"]}
{"id": "C69", "title": "The power outputs show what was last asked for", "statement": "On the Raspberry Pi back end, at every moment of every use since hal.init(), also while moves are played and while the control function of another output is running: an output (spindle, extruder heater, bed heater) last set to less than 1/256 is low, one set to 100 percent is high, one set to a value in between is high for exactly floor(percent*256/100) of the 256 slots of each PWM cycle from the next cycle on; more than 100 percent is never accepted; the fan pin shows the last fan command, the enable pin the last enable or disable; the pins stay outputs.  For a history of G-code the fan pin shows the fan state of the machine.", "quantifier": "all histories, all interleavings with the engine, all percentages", "why_tests_cant": "no hardware in the tests; interleavings; unbounded histories", "anchors": ["cnc/hal_raspberry/hal.py:spindle_control", "cnc/hal_raspberry/hal.py:fan_control", "cnc/hal_raspberry/hal.py:extruder_heater_control", "cnc/hal_raspberry/hal.py:bed_heater_control", "cnc/hal_raspberry/hal.py:disable_steppers", "cnc/hal_raspberry/rpgpio.py:DMAPWM"]}
{"id": "C70", "title": "Commands that must not disturb a running move wait for its end", "statement": "hal.move returns while the motors still run.  In every history of the machine each change of the spindle, each pause, each homing and each switching off of the motors comes right after hal.join(), so no move is cut short.", "quantifier": "all histories of commands", "why_tests_cant": "timing; the virtual back end executes moves at once", "anchors": ["cnc/gmachine.py:GMachine.do_command", "cnc/hal_raspberry/hal.py:move", "cnc/hal_raspberry/hal.py:join", "cnc/hal_raspberry/hal.py:disable_steppers"]}
{"id": "C71", "title": "Programs of straight moves keep their exact meaning in binary64", "statement": "A program of straight moves, units, modes and offsets, given as text and executed with binary64 arithmetic, does what an interpreter with real numbers does: the same lines are accepted, the motors make exactly the same steps, and every stored number is the binary64 number nearest to the real one, so that errors do not add up however long the program is. No exception escapes and no move is refused for its velocity.", "quantifier": "all programs whose words have at most nine decimals and are below 20 m, and which ask for no point within a millionth of a step of the middle between two steps; all configurations of ordinary size", "why_tests_cant": "rounding errors of thousands of operations in programs of any length; a test compares a handful of values", "anchors": ["cnc/gmachine.py:GMachine.do_command", "cnc/gmachine.py:GMachine._move_linear", "cnc/coordinates.py:Coordinates.__init__", "cnc/coordinates.py:Coordinates.round", "cnc/pulses.py:PulseGeneratorLinear.__init__"]}
{"id": "C72", "title": "From the text of a program to the microsteps of the motors, in binary64", "statement": "A program of straight moves, units, modes and offsets, given as text and executed with binary64 arithmetic, can be carried out by the Raspberry Pi back end: for every move `move` writes a DMA program without an exception and without a pause that is too long for the engine, and whenever the engine has run these programs, the driver of each motor has made exactly the microsteps that an interpreter with real numbers counts. The position that the machine holds is the binary64 number nearest to where the motors are.", "quantifier": "all programs and configurations of C71 with at least ten steps per millimetre and a buffer with room for the longest move; all earlier contents of the buffer, all behaviours of the clock and of the engine", "why_tests_cant": "rounding errors in the time of every pulse, in the square roots of acceleration and braking, and their effect on a chain of four layers down to pin levels", "anchors": ["cnc/pulses.py:PulseGenerator._to_accelerated_time", "cnc/pulses.py:PulseGeneratorLinear._interpolation_function", "cnc/hal_raspberry/hal.py:move", "cnc/hal_raspberry/rpgpio.py:DMAGPIO.add_delay", "cnc/gmachine.py:GMachine._move_linear"]}
{"id": "C73", "title": "Starting, stopping and asking the DMA channels through their registers", "statement": "`_run_dma` on an idle channel makes it execute the first block of the buffer; `_stop_dma` leaves the channel reset and executing nothing, whatever it was doing; neither touches another channel. `is_active` and `current_control_block` report the channel at the moment of the access, agree with each other throughout the life of a channel, and never go back while a program runs whose blocks lead forward. The watchdog started and fed through its registers keeps the pins as they are while it is fed and makes them inputs when it is not. `run_stream` obeys the rules of the clock generator, sets a million words per second, enables the queue, and starts the engine last.", "quantifier": "all channels, all page-aligned buffers, all interleavings of the engines with the accesses of the CPU, all contents of memory, all histories of starts, stops and feeds of all channels, all delays of the clock", "why_tests_cant": "the state of the engine between two register accesses depends on timing of the hardware; a test on the virtual back end has no registers", "anchors": ["cnc/hal_raspberry/rpgpio_private.py:DMAProto._run_dma", "cnc/hal_raspberry/rpgpio_private.py:DMAProto._stop_dma", "cnc/hal_raspberry/rpgpio_private.py:DMAProto.is_active", "cnc/hal_raspberry/rpgpio_private.py:DMAProto.current_control_block", "cnc/hal_raspberry/rpgpio.py:DMAGPIO.run_stream", "cnc/hal_raspberry/rpgpio.py:DMAWatchdog.feed"]}
{"id": "C74", "title": "The memory of the DMA engines, from the import of hal to the end of the process", "statement": "The three DMA objects get locked, page aligned memory that is large enough for their control blocks, does not overlap and was not in use. Everything is given back when the process ends, and at no moment of the end does a DMA channel execute control blocks in memory that was already given back.", "quantifier": "all decisions of the firmware, all activity of the engines and of the feeding thread between the functions called at exit; all ends of the program", "why_tests_cant": "a channel that runs on in freed memory usually goes unnoticed: nothing fails until someone else gets that memory; failures of the firmware do not happen in tests", "anchors": ["cnc/hal_raspberry/rpgpio_private.py:CMAPhysicalMemory.__init__", "cnc/hal_raspberry/rpgpio_private.py:CMAPhysicalMemory.free", "cnc/hal_raspberry/rpgpio_private.py:CMAPhysicalMemory._send_data", "cnc/hal_raspberry/rpgpio_private.py:PhysicalMemory.cleanup", "cnc/hal_raspberry/hal.py:deinit", "cnc/main.py:main"]}
{"id": "C75", "title": "Circular moves follow their circle, in order", "statement": "While an arc is executed the head goes along the circle from the start to the end in the programmed sense and never backwards: after every event there is an angle, starting with 0, never decreasing and ending with the angle of the whole turn, such that both motors of the plane are within two steps of the start turned by that angle (one and a half steps when the radius is a whole number of steps). The pulses are sent in the order of their times, pulses of one event at the same time, all between 0 and total_time_s().", "quantifier": "all arcs on steps of up to 1 m radius in any plane, both senses, with or without movement of the other two axes, at any feed of at least 1 mm/min, for all configurations with up to 1000 pulses/mm, acceleration at least 1 mm/s^2 and maximum velocities of 60..600000 mm/min; all prefixes of the pulse train", "why_tests_cant": "continuum of arcs, unbounded pulse counts; the two axes are computed independently of each other and meet only through the times of their pulses", "anchors": ["cnc/pulses.py:PulseGeneratorCircular.__init__", "cnc/pulses.py:PulseGeneratorCircular.__circular_helper", "cnc/pulses.py:PulseGeneratorCircular.__circular_find_time", "cnc/pulses.py:PulseGeneratorCircular._interpolation_function", "cnc/pulses.py:PulseGenerator.next"]}
{"id": "C76", "title": "Arcs respect the speed limits of their axes", "statement": "Two successive step pulses of an axis during an arc are never closer in time than one step at the maximum velocity of that axis (with automatic velocity adjustment), and never closer than one step at the programmed feed (with or without it).", "quantifier": "all arcs on steps of up to 1 m radius in any plane, both senses, any feed of at least 1 mm/min, with or without a third axis and the extruder, all pairs of successive pulses of all axes; all configurations with up to 1000 pulses/mm, acceleration at least 1 mm/s^2 and maximum velocities of 60..600000 mm/min", "why_tests_cant": "continuum of arcs and limits; the offending pair of pulses is the last one of an axis, and only when the end point is off the grid circle", "anchors": ["cnc/pulses.py:PulseGeneratorCircular.__init__", "cnc/pulses.py:PulseGeneratorCircular.__circular_helper", "cnc/pulses.py:PulseGeneratorCircular.__circular_find_time", "cnc/pulses.py:PulseGenerator._adjust_velocity", "cnc/pulses.py:PulseGenerator.next"]}
{"id": "C77", "title": "Acceleration on arcs", "statement": "While an arc is executed the machine starts at rest, comes to rest at the end, and never accelerates by more than STEPPER_MAX_ACCELERATION_MM_PER_S2: there is a motion along the circle with bounded acceleration and speed such that at every time both motors are within two steps of the point that belongs to it.", "quantifier": "all arcs on steps of up to 1 m radius in any plane, both senses, any feed of at least 1 mm/min; all times from 0 to total_time_s(); all configurations with up to 1000 pulses/mm, acceleration at least 1 mm/s^2 and maximum velocities of 60..600000 mm/min", "why_tests_cant": "continuum of arcs and times; acceleration is a second difference of a pulse train of unbounded length", "anchors": ["cnc/pulses.py:PulseGeneratorCircular.__init__", "cnc/pulses.py:PulseGeneratorCircular._interpolation_function", "cnc/pulses.py:PulseGenerator._to_accelerated_time", "cnc/pulses.py:PulseGenerator.next"]}
{"id": "C78", "title": "A program with arcs behaves like its reference interpretation", "statement": "For every sequence of straight moves, arcs (G2/G3), plane selections, modes, units and offsets the machine behaves like a simple reference interpreter for which an arc goes to its programmed end: the same lines are accepted, the position, the motors, the plane and the modes are those of the interpreter after every line, and the head is on the table after every single pulse.", "quantifier": "all programs of any length, given as text", "why_tests_cant": "unbounded programs and continuum of arcs", "anchors": ["cnc/gmachine.py:GMachine.do_command", "cnc/gmachine.py:GMachine._move_circular", "cnc/pulses.py:PulseGeneratorCircular.__init__"]}
{"id": "C79", "title": "An accepted arc has its outermost points on the table", "statement": "When a G2/G3 move is accepted, every point on its way where the arc is outermost in the direction of an axis of its plane (where it passes from one quarter of the circle to the next) lies on the table.", "quantifier": "all end points, centres, planes and senses; all positions on the table", "why_tests_cant": "continuum of arcs; the unchecked points depend on the quarters of start and end and on rounding", "anchors": ["cnc/gmachine.py:GMachine.__adjust_circle", "cnc/gmachine.py:GMachine.__quarter", "cnc/gmachine.py:GMachine._move_circular"]}
{"id": "C80", "title": "Moves run at the programmed feed", "statement": "Between speeding up and braking, each of at most |w|/acceleration seconds, a straight move runs uniformly at the speeds w of its axes: the programmed feed in the direction of the move, or, with automatic adjustment, a lower speed at which some axis reaches its limit. Its duration is that of its length at |w| plus at most 2|w|/acceleration. The same holds along the circle for arcs.", "quantifier": "all straight moves, feeds and configurations of realistic size, every pair of steps; all arcs in a plane, short and long", "why_tests_cant": "continuum of moves and feeds; every pulse of every move", "anchors": ["cnc/pulses.py:PulseGeneratorLinear.__init__", "cnc/pulses.py:PulseGenerator._adjust_velocity", "cnc/pulses.py:PulseGenerator.__next__", "cnc/pulses.py:PulseGeneratorCircular.__init__"]}
{"id": "C81", "title": "The motors keep the time of the generator", "statement": "hal.move() starts every step pulse at most the length of a pulse (STEPPER_PULSE_LENGTH_US) later than the generator planned it.", "quantifier": "all generators, all pulses of a move", "why_tests_cant": "depends on near-coincidences of pulses of several motors, which accumulate over a whole move", "anchors": ["cnc/hal_raspberry/hal.py:move", "cnc/hal_raspberry/rpgpio.py:DMAGPIO.add_delay", "cnc/hal_raspberry/rpgpio.py:DMAGPIO.add_pulse"]}
{"id": "C82", "title": "A move is carried out completely or not begun", "statement": "If hal.move() ends with an exception (memory of the DMA buffer exhausted, exception of the generator, empty generator), the DMA engine has not been started with any part of the move.", "quantifier": "all generators and their ends, all buffers, all behaviours of the engine and the clock during the call", "why_tests_cant": "the exception depends on how many control blocks fit into the buffer and comes in the middle of a stream that is already being played", "anchors": ["cnc/hal_raspberry/hal.py:move", "cnc/hal_raspberry/rpgpio.py:DMAGPIO.add_pulse", "cnc/hal_raspberry/rpgpio.py:DMAGPIO.run_stream"]}
{"id": "C83", "title": "Rapid moves are as fast as the axes allow", "statement": "G0 moves at the greatest speed, in whole mm/min, for which no axis exceeds its maximum velocity.", "quantifier": "all G0 lines in all reachable states, all directions, all configurations of realistic size", "why_tests_cant": "a minimum over four axes of quotients that depend continuously on the direction", "anchors": ["cnc/gmachine.py:GMachine.do_command"]}
{"id": "C84", "title": "On arcs all axes move in proportion", "statement": "While an arc is executed, the third axis and the extruder advance in proportion to the angle turned: after every event there is a part of the way (0 at the start, 1 at the end, never decreasing) such that both axes of the plane are at this part of the angle and the other two at this part of their distance, up to about two steps (plane) and one step (others).", "quantifier": "all arcs on steps of up to 1 m radius in any plane, both senses, any feed of at least 1 mm/min, third axis and extruder moving by up to 1 m; every prefix of the pulse train; all configurations with up to 1000 pulses/mm", "why_tests_cant": "continuum of arcs, pitches and feeds; every pulse of every axis", "anchors": ["cnc/pulses.py:PulseGeneratorCircular.__init__", "cnc/pulses.py:PulseGeneratorCircular.__linear", "cnc/pulses.py:PulseGeneratorCircular._interpolation_function", "cnc/pulses.py:PulseGenerator.__next__"]}
{"id": "C85", "title": "The Raspberry Pi carries out arcs", "statement": "For an arc, flat or helical, the hardware's move function returns without an exception: no pause between pulses exceeds what one DMA delay can hold, and the control blocks fit the buffer.  Then, in every schedule of the engine, each stepper driver makes exactly the steps of the arc; after a whole program of straight moves and arcs, given as text, each driver has made the steps of the reference interpreter.", "quantifier": "all arcs of up to 1 m radius in any plane, any feed of at least 1 mm/min; all programs of accepted lines; all configurations with 50 to 1000 pulses/mm and at least 200 mm/s^2; all earlier buffer contents and schedules of the DMA engine", "why_tests_cant": "needs the hardware; continuum of arcs and feeds, each with up to hundreds of thousands of pulses, and all interleavings with the engine", "anchors": ["cnc/hal_raspberry/hal.py:move", "cnc/hal_raspberry/rpgpio.py:DMAGPIO.add_delay", "cnc/hal_raspberry/rpgpio.py:DMAGPIO.add_pulse", "cnc/pulses.py:PulseGeneratorCircular.__init__", "cnc/pulses.py:PulseGenerator.__next__", "cnc/gmachine.py:GMachine._move_circular"]}
{"id": "C86", "title": "An accepted arc ends where it was programmed, on its circle or not", "statement": "The end of an arc need not be on its circle: the machine then goes to a point of the circle and from there straight to the end.  If a program with such arcs runs without an escaping exception, the lines carried out are lines the reference interpreter carries out, and at the end the recorded position, the motors and, on the Raspberry Pi, the stepper drivers are exactly where the interpreter is after these lines.", "quantifier": "all programs of straight moves, arcs, planes, modes, units and offsets in which every arc ends in another quarter than it starts, away from the quarter's border, or on its circle and ahead of its start; all radii up to 1 m; all outcomes of the acceptance tests", "why_tests_cant": "continuum of starts, ends, centres and rounding cases; two generators per arc, each with up to hundreds of thousands of pulses", "anchors": ["cnc/gmachine.py:GMachine._move_circular", "cnc/gmachine.py:GMachine.__adjust_circle", "cnc/pulses.py:PulseGeneratorCircular.__init__", "cnc/pulses.py:PulseGeneratorLinear.__init__", "cnc/hal_raspberry/hal.py:move"]}
{"id": "C87", "title": "The pulses of straight moves in binary64 arithmetic: order, step rate, path", "statement": "With the floating-point arithmetic that the program really uses: all pulses of an event of a straight move have one time, events are in order up to 10^-7 s, successive pulses of an axis are never closer than the maximum velocity of the axis allows (up to 2 parts in 10^5 and 0.4 microseconds) and strictly in order, all times are within the time of the move, and after every event all axes are within one step (and 3/10^4 mm) of one point of the straight segment.", "quantifier": "all displacements up to 10 m per axis, all feeds from 1 mm/min, all configurations with up to 1000 steps per mm and velocity limits from 1 mm/s to 1 m/s; every rounding of every operation", "why_tests_cant": "continuum of displacements and feeds; errors of a chain of a dozen roundings per pulse over up to millions of pulses; square roots of differences near the end of the braking ramp", "anchors": ["cnc/pulses.py:PulseGenerator._to_accelerated_time", "cnc/pulses.py:PulseGenerator.__next__", "cnc/pulses.py:PulseGeneratorLinear.__init__", "cnc/pulses.py:PulseGeneratorLinear._interpolation_function"]}
{"id": "C88", "title": "Straight moves pass the self-test of the virtual machine in binary64 arithmetic", "statement": "With the floating-point arithmetic that the program really uses, no assertion of hal_virtual.move fails for a straight move: directions are those of the distance, the pulses of an axis are in different microseconds in increasing order, no pulse is later than total_time_s(), and the number of pulses divided by the steps per millimetre, rounded to ten decimals, is exactly the distance. So a program of straight moves runs on the virtual machine without exception and with the result of the reference interpreter.", "quantifier": "all displacements up to 10 m per axis, all feeds from 1 mm/min, all configurations with 1 to 1000 steps per mm and velocity limits from 1 mm/s to 1 m/s, at most 700000 steps per second; all programs of straight moves, modes, units and offsets", "why_tests_cant": "exact equality and exact inequality of rounded numbers over a continuum of moves: a test of a few hundred moves does not meet the distances where two ways to compute the same quotient round differently", "anchors": ["cnc/hal_virtual.py:move", "cnc/pulses.py:PulseGenerator._to_accelerated_time", "cnc/pulses.py:PulseGenerator.total_time_s", "cnc/coordinates.py:Coordinates.round", "cnc/gmachine.py:GMachine._move_linear"]}
{"id": "C89", "title": "Rapid moves are never refused for their speed", "statement": "A G0 line, whose speed the machine chooses itself, is never refused with \"out of maximum speed\".", "quantifier": "all G0 lines in all reachable states with displacements up to 10 m per axis, all configurations of realistic size, with and without AUTO_VELOCITY_ADJUSTMENT", "why_tests_cant": "the refusal depends on how the rounding to steps turns the direction of the move; the moves of a test with round coordinates are not turned", "anchors": ["cnc/gmachine.py:GMachine.do_command", "cnc/gmachine.py:GMachine._move_linear", "cnc/gmachine.py:GMachine.__check_velocity"]}
{"id": "C90", "title": "Arcs end where they should in floating point", "statement": "Computed in binary64, an arc raises no exception, sends every axis the number of pulses of exact arithmetic, and ends exactly at its end.", "quantifier": "all planes and both senses of rotation, all arcs on steps with radii up to 10^4 steps without helical part, all configurations of realistic size whose axes in the plane have the same step, every feed from 1 mm/min", "why_tests_cant": "quarters of the circle are found by truncating an angle divided by pi / 2, and numbers of steps by truncating products; which of the millions of arcs lie on the wrong side of such a truncation cannot be tried out", "anchors": ["cnc/pulses.py:PulseGeneratorCircular.__init__", "cnc/pulses.py:PulseGeneratorCircular.__angle", "cnc/pulses.py:PulseGeneratorCircular._interpolation_function"]}
{"id": "C91", "title": "Helices end where they should in floating point", "statement": "Computed in binary64, a helix or an arc with extrusion raises no exception, moves the axes of its plane exactly to its end, and sends the axis across the plane and the extruder exactly the pulses of their distances, in the right direction.", "quantifier": "all planes and both senses of rotation, all arcs on steps with radii up to 10^4 steps whose parts are not tiny compared with the whole, all distances of the other two axes up to 1 m, all configurations of realistic size whose axes in the plane have the same step, every feed from 1 mm/min", "why_tests_cant": "the count of pulses across the plane stops at the product of a rounded distance and the steps per mm; for a fraction of all distances the product is larger than the whole number of steps and one pulse too many is sent, and a velocity that is rounded to zero divides by zero; both depend on digits that no sample covers", "anchors": ["cnc/pulses.py:PulseGeneratorCircular.__init__", "cnc/pulses.py:PulseGeneratorCircular._interpolation_function", "cnc/pulses.py:PulseGenerator._adjust_velocity"]}
{"id": "C92", "title": "A program with arcs keeps its meaning in floating point", "statement": "Computed in binary64, a program of straight moves, arcs, planes, modes, units and offsets has the effect that a reference interpreter with exact real numbers gives it: the same lines are accepted and refused, the motors have made exactly the steps of the interpreter, and the position, offset and feed are the binary64 numbers nearest to its own; a refused line changes nothing and no exception escapes.", "quantifier": "all programs, given as text, of any length; all numbers of up to nine decimals in mm or inches; all configurations of realistic size; all arcs without helical part whose radius and centre survive conversion from steps to mm and back", "why_tests_cant": "every line starts from numbers that the lines before it have rounded; whether an arc is on the table, ends on its circle and has a velocity within the limits is decided by comparisons of rounded values, and an error of one unit in the last place of the radius moves the head by several steps", "anchors": ["cnc/gmachine.py:GMachine.do_command", "cnc/gmachine.py:GMachine._move_circular", "cnc/gmachine.py:GMachine.__adjust_circle", "cnc/pulses.py:PulseGeneratorCircular.__init__"]}
{"id": "C93", "title": "An accepted arc ends where it was programmed in floating point, on its circle or not", "statement": "Computed in binary64, an arc that the machine accepts leaves the head at the programmed end even when that end is not on the circle: the machine goes round to a point of the circle in the same quarter as the end, then straight to the end; the motors have made exactly the programmed steps, and the position is the binary64 number nearest to the programmed one. A refused arc changes nothing.", "quantifier": "all programs, given as text, of any length; all numbers of up to nine decimals in mm or inches; all configurations of realistic size; all flat arcs that end in another quarter of the circle than they start in, at any distance from the circle, whose radius and centre survive conversion from steps to mm and back", "why_tests_cant": "the corrected end is computed with a square root, divisions and a rounding to whole steps, all rounded in binary64; one unit in the last place may move the corrected end by a step, and then the arc and the straight rest must still add up to the programmed move for every end in the plane", "anchors": ["cnc/gmachine.py:GMachine.__adjust_circle", "cnc/gmachine.py:GMachine._move_circular", "cnc/pulses.py:PulseGeneratorCircular.__init__", "cnc/coordinates.py:Coordinates.round"]}
{"id": "C94", "title": "Straight moves and flat arcs are never refused for their speed in floating point", "statement": "On a machine that adjusts velocities automatically, computed in binary64, no line G0, G1, and no line G2 or G3 of an arc in its plane is answered with \"out of maximum speed\", whatever feed is programmed: the adjusted speed never exceeds the limit by a rounding error. That includes the straight rest of an arc whose end is not on its circle.", "quantifier": "all states of the machine, reachable or not; all lines with straight moves up to 9999 mm per axis, and all flat arcs up to 1900 mm with centres up to 1900 mm away; all feeds; all configurations with 1 to 1000 steps per mm, limits of 60 to 60000 mm/min that are decimal numbers of mm/s, and automatic adjustment", "why_tests_cant": "the speed of an axis is the product of several rounded quotients and is then compared with the limit exactly; one unit in the last place too much refuses the line, for some combinations of displacement and feed among billions", "anchors": ["cnc/gmachine.py:GMachine.__check_velocity", "cnc/gmachine.py:GMachine._move_linear", "cnc/gmachine.py:GMachine._move_circular", "cnc/gmachine.py:GMachine.do_command", "cnc/pulses.py:PulseGenerator._adjust_velocity"]}
{"id": "C95", "title": "A straight move by any numbers makes the nearest steps or changes nothing, in floating point", "statement": "Computed in binary64, a line G0 or G1 does one of four things. It makes on each axis a whole number of steps nearest to the programmed displacement (either one when it is in the middle), exactly these steps are sent to the motors, the position changes by them up to 2e-10 mm, and the move ends on the table. Or it is refused as out of the effective area, and then this move would leave the table or end on its very border. Or the feed is below the minimum, or a word of the line is not a number. A refused line changes nothing. There is no division by zero and no other failure.", "quantifier": "all states with positions up to 100 m, reachable or not, all lines with displacements up to 9999 mm per axis, with any number of digits and also in the middle of two steps; all feeds; all configurations with 1 to 1000 steps per mm, tables up to 10 m, and automatic adjustment of velocities", "why_tests_cant": "the steps are counted once by rounding the displacement and once by the generator, from a product that was rounded three times; a disagreement needs particular digits, and the set of displacements is not finite", "anchors": ["cnc/gmachine.py:GMachine._move_linear", "cnc/gmachine.py:GMachine.__check_delta", "cnc/gmachine.py:GMachine.do_command", "cnc/pulses.py:PulseGeneratorLinear.__init__", "cnc/coordinates.py:Coordinates.round"]}
{"id": "C96", "title": "The machine can be sent home, in floating point", "statement": "Computed in binary64, G28 after any program of straight moves, modes, units and offsets is not refused: straight moves bring exactly the named axes (all three if none is named) back by exactly the steps that their motors have made, the machine then holds exactly zero for them and the same numbers as before for the others, and after the motors have stopped exactly these axes are calibrated. The only error is a failed calibration.", "quantifier": "all programs of straight moves (of any length), all states in which the machine holds the numbers nearest to the steps made, all lines G28 with any of the words X, Y, Z, all configurations with decimal steps", "why_tests_cant": "the way back is computed from the rounded position and rounded to steps again; whether it ends a tenth of a nanometre below zero, where the table ends, depends on the digits of all moves before", "anchors": ["cnc/gmachine.py:GMachine.safe_zero", "cnc/gmachine.py:GMachine.do_command", "cnc/gmachine.py:GMachine._move_linear", "cnc/gmachine.py:GMachine.__check_delta"]}
{"id": "C97", "title": "Programs of straight moves with homing keep their exact meaning in binary64", "statement": "A program of straight moves, modes, units, offsets and homing lines, given as text and executed with binary64 arithmetic, does what an interpreter with real numbers does in which homing sets the steps of the named axes to zero: the same lines are accepted, no homing line is refused, the motors have made exactly the same steps in all, and every stored number is the binary64 number nearest to the real one, after any number of homings.", "quantifier": "all programs of any length with homing anywhere, of any axes; all configurations with decimal steps; homing lines without F, with a feed not below the minimum; hardware that moves and calibrates without errors", "why_tests_cant": "one homing that ends a digit away from zero would shift all later moves, or be refused; this depends on the digits of all lines before", "anchors": ["cnc/gmachine.py:GMachine.do_command", "cnc/gmachine.py:GMachine.safe_zero", "cnc/gmachine.py:GMachine._move_linear", "cnc/main.py:do_line"]}
{"id": "C98", "title": "Programs with arcs and homing keep their exact meaning in binary64", "statement": "A program of straight moves, arcs, planes, modes, units, offsets and homing lines, given as text and executed with binary64 arithmetic, does what an interpreter with real numbers does in which homing sets the steps of the named axes to zero and keeps the plane: the same lines are accepted, a homing line is answered with an error exactly when the end switches do not work and the head is at zero all the same, the motors have made exactly the same steps in all, and every stored number is the binary64 number nearest to the real one.", "quantifier": "all programs of any length with arcs of C92 and homing anywhere, of any axes; all configurations with decimal steps; homing lines without F, with a feed not below the minimum; hardware that moves without errors and whose calibration always succeeds or always fails", "why_tests_cant": "what an arc leaves behind in the last digit decides whether the machine can go home; there are infinitely many programs and digits", "anchors": ["cnc/gmachine.py:GMachine.do_command", "cnc/gmachine.py:GMachine.safe_zero", "cnc/gmachine.py:GMachine._move_circular", "cnc/main.py:do_line"]}
{"id": "C99", "title": "Programs with homing: from the text to the steps that the motor drivers make, in binary64", "statement": "A program of straight moves, modes, units, offsets and homing lines, given as text and executed with binary64 arithmetic: every move of it, also those of homing, can be carried out by the Raspberry Pi back end, and whenever they have been, the driver of each motor, which sees only the level changes of its two pins, has made exactly the steps of an interpreter with real numbers, and the stored position of X, Y and Z is the binary64 number nearest to the place where the motor is. Failing end switches change the answer to a homing line and nothing of this.", "quantifier": "all programs of any length with homing anywhere, of any axes; all configurations with decimal steps, at least 10 per millimetre, and a buffer that holds the longest move; every timing of the engine that stays behind the writer; calibration that always succeeds or always fails, its own pulses not counted", "why_tests_cant": "it joins the text of all programs, rounding in all digits, the contents of the control blocks and every interleaving of the engine with the writer", "anchors": ["cnc/gmachine.py:GMachine.do_command", "cnc/gmachine.py:GMachine.safe_zero", "cnc/hal_raspberry/hal.py:move", "cnc/main.py:do_line"]}
{"id": "C100", "title": "Homing is never refused for its speed", "statement": "A G28 line, whose speed the machine chooses itself, is never refused with \"out of maximum speed\".", "quantifier": "all G28 lines, naming any axes, in all reachable states; all configurations of realistic size, with and without AUTO_VELOCITY_ADJUSTMENT", "why_tests_cant": "the refusal needs a configuration that is not the default, a homing line for one particular axis, and a head that is far enough from zero; homing all axes always works", "anchors": ["cnc/gmachine.py:GMachine.safe_zero", "cnc/gmachine.py:GMachine._move_linear", "cnc/gmachine.py:GMachine.__check_velocity"]}
{"id": "C101", "title": "The machine can always be sent home", "statement": "Whatever lines the machine has been given before, accepted or refused, arcs, offsets, units and failed homing included: a G28 line whose words are numbers takes exactly the axes that it homes to zero, calibrates exactly these, and is answered with success, or with \"failed to calibrate\" exactly when the end switches fail. It is never refused.", "quantifier": "all reachable states, all G28 lines naming any axes with any numeric words and a feed not below the minimum, all configurations of realistic size with decimal steps; the machine adjusts velocities, or X is not faster than Y, or the line homes X or does not home Y", "why_tests_cant": "every history of lines can come before the homing line; the acceptance depends on the position being on whole steps after all roundings of that history", "anchors": ["cnc/gmachine.py:GMachine.do_command", "cnc/gmachine.py:GMachine.safe_zero", "cnc/gmachine.py:GMachine._move_linear"]}
{"id": "C102", "title": "A finished program leaves no settings to the next one", "statement": "After M2 or M30 (\"program finish, reset everything\") the next program, whatever it is, gets the same replies, makes the same hardware calls and ends in the same state as on a machine that has just been started, with its head, fan and heaters as they are.", "quantifier": "all histories before the M2 or M30 line, all following programs of any length, any text, accepted and refused lines; all configurations whose slowest axis may run at the minimum feed; every arithmetic", "why_tests_cant": "every pair of programs, one before and one after the M2 line, would have to be tried; a setting that survives shows only in a program that uses it before it sets it", "anchors": ["cnc/gmachine.py:GMachine.do_command", "cnc/gmachine.py:GMachine.reset", "cnc/main.py:do_line"]}
{"id": "C103", "title": "A program in relative mode does the same wherever it starts", "statement": "In relative mode, a program of lines other than G28, G90, M2 and M30 that is accepted from two places makes the same hardware calls in the same order, with the same moves, speeds and times, from both, and leaves the same settings. Neither the position nor the offset of G92 nor what was done before has any influence on how the motors are driven.", "quantifier": "all programs of any length and text without the four commands; all pairs of states in relative mode that differ in position, offset and history only, also positions off the table or off the steps; all configurations and hardware; every arithmetic, so also with binary64 rounding", "why_tests_cant": "all starting places would have to be tried for all programs; in floating point a dependence on the place would be one of the last digit and would show in single steps at few places only", "anchors": ["cnc/gmachine.py:GMachine.do_command", "cnc/gmachine.py:GMachine._move_linear", "cnc/gmachine.py:GMachine._move_circular", "cnc/pulses.py:PulseGeneratorLinear"]}
{"id": "C104", "title": "A program does the same wherever its origin has been set", "statement": "A program of lines other than G28, G53, M2 and M30, in absolute or relative mode or changing between them and setting offsets of its own, makes the same hardware calls in the same order from two states in which the head is at the same place as seen from the origin set with G92, if its lines are accepted both times. At the end the head is again at the same place as seen from the origin, with the same settings.", "quantifier": "all programs of any length and text without the four commands; all pairs of states that differ in history and in a shift of head and origin together; all configurations and hardware; exact arithmetic with any nearest-integer rounding", "why_tests_cant": "all origins would have to be tried for all programs; an offset that is applied once too often or too seldom in one command shows only with origins that differ from the machine's and programs that combine that command with others", "anchors": ["cnc/gmachine.py:GMachine.do_command", "cnc/gmachine.py:GMachine._move_linear", "cnc/gmachine.py:GMachine._move_circular"]}
{"id": "C105", "title": "A calibration does not give up before the whole table could be crossed", "statement": "When the calibration of the end stops reports failure, then since some moment during the calibration so much time has passed, by the clock that the code reads, that at the pulse rate of the calibration (the calibration velocity times the average of the three pulses per mm) 1.2 times as many pulses could be sent as the whole table is long along each requested axis.", "quantifier": "all configurations with a positive pulse rate of the calibration, all sets of requested axes, all end stop signals, clocks and timings of the engine; pins that are distinct and below 32, a DMA buffer apart from the GPIO registers, an engine that is idle at the start; exact arithmetic", "why_tests_cant": "all sizes and step lengths of tables, sets of axes and signal histories would have to be tried; a limit computed for the wrong axis shows only on machines whose axes differ in a certain way", "anchors": ["cnc/hal_raspberry/hal.py:__calibrate_private", "cnc/hal_raspberry/hal.py:calibrate"]}
