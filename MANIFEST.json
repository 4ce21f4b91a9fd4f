{"claims": [
  {"property": "C01", "status": "proved", "theorems": ["PyCNC.Props.C01_accepts_exactly_blocks", "PyCNC.Props.C01_none_exactly_blank", "PyCNC.Props.C01_error_is_gcode", "PyCNC.Props.C01_strip_unique"], "note": "For every text encoding satisfying the PyText laws (upper, isspace)."},
  {"property": "C02", "status": "proved", "theorems": ["PyCNC.Props.C02_insert_blanks", "PyCNC.Props.C02_insert_paren_comment", "PyCNC.Props.C02_append_semicolon_comment"], "note": ""},
  {"property": "C03", "status": "proved", "theorems": ["PyCNC.Props.C03_case_insensitive"], "note": ""},
  {"property": "C04", "status": "partial", "theorems": ["PyCNC.Props.C04_reported_partial", "PyCNC.Props.C04_refuted", "PyCNC.Props.C04_sensor_refuted"], "note": "False of the code: X1.2.3 is accepted and raises ValueError; a sensor failing after the heater start raises IOError. Partial: exact arithmetic, realistic configuration, no hardware errors, decimal numbers, no arcs, E moves below 10 m."},
  {"property": "C05", "status": "proved", "theorems": ["PyCNC.Props.C05_blank_line_no_effect", "PyCNC.Props.C05_words_only_change_feed"], "note": "Any arithmetic, configuration and hardware behaviour."},
  {"property": "C06", "status": "proved", "theorems": ["PyCNC.Props.C06_exact_add_sub", "PyCNC.Props.C06_binary64_add_sub", "PyCNC.Props.C06_binary64_no_drift"], "note": "Exact reals and IEEE binary64 (round to nearest even), magnitudes up to 100000 mm."},
  {"property": "C07", "status": "proved", "theorems": ["PyCNC.Props.C07_nearest", "PyCNC.Props.C07_fixes_multiples", "PyCNC.Props.C07_idempotent", "PyCNC.Props.C07_monotone"], "note": "Exact arithmetic; bases larger than 1e-10 (each default step is 0.0025 mm or more)."},
  {"property": "C08", "status": "proved", "theorems": ["PyCNC.Props.C08_aabb_iff"], "note": "Any arithmetic with faithful comparisons; instances for the reals and binary64."},
  {"property": "C09", "status": "proved", "theorems": ["PyCNC.Props.C09_position_in_table", "PyCNC.Props.C09_position_call"], "note": "Exact arithmetic with any nearest-integer rounding, every history of calls."},
  {"property": "C10", "status": "partial", "theorems": ["PyCNC.Props.C10_last_partial", "PyCNC.Props.C10_stays_on_table_partial", "PyCNC.Props.C10_circles_partial", "PyCNC.Props.C10_refuted"], "note": "False of the code: the border into the last quarter of an arc is never checked; G2 X199 Y90 J-5 at (199, 100) takes the head to X204. Partial: every pulse of every history without hardware errors whose arcs have their end, and of their outermost points the last, on the table (C10_last_partial; the program checks the others); in particular if the arcs lie on the table (C10_stays_on_table_partial) or their circles do (C10_circles_partial)."},
  {"property": "C100", "status": "partial", "theorems": ["PyCNC.Props.C100_homing_partial", "PyCNC.Props.C100_refuted"], "note": "Exact arithmetic, configurations of realistic size. False for homing Y without X on a machine whose X is faster than its Y, without AUTO_VELOCITY_ADJUSTMENT (C100_refuted); proved for all other homing lines in all reachable states."},
  {"property": "C101", "status": "proved", "theorems": ["PyCNC.Props.C101_home", "PyCNC.Props.C101_example"], "note": "Exact arithmetic, decimal steps, moves that do not fail in the hardware. The one homing line that can be refused for its speed (C100_refuted) is excluded by hypothesis; without decimal steps the claim is false (C96_refuted)."},
  {"property": "C102", "status": "partial", "theorems": ["PyCNC.Props.C102_next_partial", "PyCNC.Props.C102_refuted"], "note": "Any arithmetic, so also binary64. The stored feed survives M2/M30 (C102_refuted, default machine); proved for programs in which no line before the first accepted F word is a G1/G2/G3 move without F. Position, fan, heaters and the hardware are carried over by intention."},
  {"property": "C103", "status": "proved", "theorems": ["PyCNC.Props.C103_anywhere"], "note": "Any arithmetic, so also binary64. Lines G28, G90, M2 and M30 are excluded by the statement; whether a line is accepted does depend on the place (the table ends somewhere), so acceptance from both places is a hypothesis."},
  {"property": "C104", "status": "proved", "theorems": ["PyCNC.Props.C104_origin"], "note": "Exact arithmetic (positions and offsets with ten decimals, as every state of the machine has), any nearest-integer rounding. Lines G28, G53, M2 and M30 are excluded by the statement; acceptance both times is a hypothesis, since the table does not move with the origin."},
  {"property": "C105", "status": "proved", "theorems": ["PyCNC.Props.C105_patience", "PyCNC.Props.C105_pulses"], "note": "Exact arithmetic. The theorem gives a moment during the calibration; that it is the start of the phase that gave up is seen only inside the proof of phase_late. The rate is the one the code computes, an average over the axes. The real distance of two pulses is longer by the length of a pulse; C105_pulses shows that the factor 1.2 covers this if the length times the rate is at most 200000 (default: 2000). Whether the engine really sent pulses during all of that time is not part of the statement."},
  {"property": "C11", "status": "partial", "theorems": ["PyCNC.Props.C11_position_partial", "PyCNC.Props.C11_position_call_partial", "PyCNC.Props.C11_default_partial", "PyCNC.Props.C11_drift_partial", "PyCNC.Props.C11_steps_partial", "PyCNC.Props.C11_refuted", "PyCNC.Props.C11_extruder_refuted"], "note": "False of the code for arcs that end before their start in the same quarter (the position then differs by the chord of the arc) and, in the tenth decimal, for the extruder. Partial: every history without hardware errors; arcs on steps that do not end before their start in the same quarter; exact for axes with decimal steps, with a drift bound for any axis of histories without arcs."},
  {"property": "C12", "status": "proved", "theorems": ["PyCNC.Props.C12_absolute_move", "PyCNC.Props.C12_absolute_move_distance", "PyCNC.Props.C12_unnamed_axis_stays", "PyCNC.Props.C12_position_on_step"], "note": "Exact arithmetic with any nearest-integer rounding, every history of calls. Axes whose step is not a ten digit decimal (E with 150 pulses/mm) get the half step distance bound instead of exact step positions."},
  {"property": "C13", "status": "proved", "theorems": ["PyCNC.Props.C13_relative_move", "PyCNC.Props.C13_relative_move_distance", "PyCNC.Props.C13_unnamed_axis_stays"], "note": "Exact arithmetic with any nearest-integer rounding, every history of calls."},
  {"property": "C14", "status": "proved", "theorems": ["PyCNC.Props.C14_arc_ends_like_line", "PyCNC.Props.C12_absolute_move", "PyCNC.Props.C13_relative_move"], "note": "Exact arithmetic with any nearest-integer rounding, every history of calls. The C12 and C13 theorems cover arcs as well."},
  {"property": "C15", "status": "proved", "theorems": ["PyCNC.Props.C15_moves_nothing", "PyCNC.Props.C15_renames_current_point", "PyCNC.Props.C15_G53"], "note": "Exact arithmetic with any nearest-integer rounding, every history of calls."},
  {"property": "C16", "status": "proved", "theorems": ["PyCNC.Props.C16_inch_is_unit_change"], "note": "Exact arithmetic; all commands."},
  {"property": "C17", "status": "proved", "theorems": ["PyCNC.Props.C17_rejected_changes_nothing", "PyCNC.Props.C17_failed_homing_changes_only_position"], "note": "Any arithmetic, configuration and hardware behaviour; temperature reads are the only HAL calls of a rejected command."},
  {"property": "C18", "status": "proved", "theorems": ["PyCNC.Props.C18_feed_is_modal", "PyCNC.Props.C18_failure_keeps_feed", "PyCNC.Props.C18_low_feed_rejected", "PyCNC.Props.C18_feed_at_least_minimum"], "note": "Any arithmetic; the lower bound for arithmetics with faithful comparison."},
  {"property": "C19", "status": "proved", "theorems": ["PyCNC.Props.C19_only_own_commands", "PyCNC.Props.C19_mode_commands", "PyCNC.Props.C19_program_end"], "note": "M2/M30 restore everything except the feed, which do_command writes back (see C18)."},
  {"property": "C20", "status": "proved", "theorems": ["PyCNC.Props.C20_unknown_no_effect", "PyCNC.Props.C20_unknown_message"], "note": ""},
  {"property": "C21", "status": "proved", "theorems": ["PyCNC.Props.C21_power_in_range", "PyCNC.Props.C21_start", "PyCNC.Props.C21_stop", "PyCNC.Props.C21_bad_speed_rejected"], "note": "Range 0..100 in exact arithmetic, the rest in any arithmetic."},
  {"property": "C22", "status": "proved", "theorems": ["PyCNC.Props.C22_targets_in_range", "PyCNC.Props.C22_bad_temperature_rejected", "PyCNC.Props.C22_zero_switches_off"], "note": ""},
  {"property": "C23", "status": "partial", "theorems": ["PyCNC.Props.C23_one_controller_partial", "PyCNC.Props.C23_refuted"], "note": "False of the code: a sensor failure inside Heater.__init__ leaves an unregistered running controller (C23_refuted). Proved when the sensor answers right after each start."},
  {"property": "C24", "status": "partial", "theorems": ["PyCNC.Props.C24_release_partial", "PyCNC.Props.C24_refuted"], "note": "False of the code for the same reason as C23. Everything else holds without hypothesis."},
  {"property": "C25", "status": "proved", "theorems": ["PyCNC.Props.C25_homing", "PyCNC.Props.C25_failure_reported"], "note": "Exact arithmetic with any nearest-integer rounding, every history of calls. For configurations whose X, Y, Z steps are ten digit decimals (default)."},
  {"property": "C26", "status": "proved", "theorems": ["PyCNC.Props.C26_fan_state_is_last_command", "PyCNC.Props.C26_fan_before_heater"], "note": ""},
  {"property": "C27", "status": "proved", "theorems": ["PyCNC.Props.C27_temperatures", "PyCNC.Props.C27_position", "PyCNC.Props.C27_dwell", "PyCNC.Props.C27_dwell_rejected"], "note": ""},
  {"property": "C28", "status": "proved", "theorems": ["PyCNC.Props.C28_linear_pulses", "PyCNC.Props.C28_any_arithmetic_partial", "PyCNC.Props.C28_refuted"], "note": "Exact arithmetic with any nearest-integer rounding. Counts and directions also in any arithmetic once the iteration stops. C28_refuted: outside the stated range of moves (10^10 mm of filament) the generator raises ZeroDivisionError."},
  {"property": "C29", "status": "proved", "theorems": ["PyCNC.Props.C29_ordered"], "note": "Exact arithmetic with any nearest-integer rounding. "},
  {"property": "C30", "status": "proved", "theorems": ["PyCNC.Props.C30_step_rate"], "note": "Exact arithmetic with any nearest-integer rounding. "},
  {"property": "C31", "status": "proved", "theorems": ["PyCNC.Props.C31_straight"], "note": "Exact arithmetic with any nearest-integer rounding. "},
  {"property": "C32", "status": "partial", "theorems": ["PyCNC.Props.C32_adjusted_partial", "PyCNC.Props.C32_manual_partial", "PyCNC.Props.C32_manual_refuted", "PyCNC.Props.C32_circular_partial", "PyCNC.Props.C32_circular_refuted"], "note": "Exact arithmetic with any nearest-integer rounding. Proved for linear moves with adjustment, for long linear moves without, and for arcs with adjustment that move only the two axes of their plane or are long enough to reach their speed; false for short diagonal moves without adjustment and for short helical arcs with adjustment (witnesses)."},
  {"property": "C33", "status": "partial", "theorems": ["PyCNC.Props.C33_acceleration_partial", "PyCNC.Props.C33_refuted"], "note": "Exact arithmetic with any nearest-integer rounding. Acceleration bound proved for every axis, with start at rest; end at rest proved for moves of one axis and false for diagonal moves (witness)."},
  {"property": "C34", "status": "partial", "theorems": ["PyCNC.Props.C34_arc_pulses_partial", "PyCNC.Props.C34_whole_steps", "PyCNC.Props.C34_full_circle", "PyCNC.Props.C34_back_in_quarter", "PyCNC.Props.C34_refuted", "PyCNC.Props.C34_extruder_refuted", "PyCNC.Props.C34_full_circle_refuted"], "note": "Exact arithmetic, every rounding, every sane configuration and every ordinary arc. False of the code for arcs whose end lies before their start in the same quarter (they become full circles), for extrusion by a fraction of a step (one pulse too many) and for circles in a plane of two axes with different steps unless the radius is a whole number of steps."},
  {"property": "C35", "status": "partial", "theorems": ["PyCNC.Props.C35_end_partial", "PyCNC.Props.C35_on_circle", "PyCNC.Props.C35_refuted"], "note": "Exact arithmetic. The end before rounding to steps is on the circle for every arc. False of the code in general: the point is not the one nearest to the programmed end, so most arcs end elsewhere on the circle and get an additional straight move. Partial: ends beside, above, below or diagonal from the centre, and full circles."},
  {"property": "C36", "status": "partial", "theorems": ["PyCNC.Props.C36_no_exception_partial", "PyCNC.Props.C36_sqrt_refuted", "PyCNC.Props.C36_end_refuted", "PyCNC.Props.C36_binary64_refuted"], "note": "Exact arithmetic: constructor and iteration of every ordinary arc. False of the code for arcs whose rounded end has another distance from the centre (assertion, whole machine command), for arcs in a plane of two axes with different steps, and in binary64 for full circles whose radius is truncated."},
  {"property": "C37", "status": "partial", "theorems": ["PyCNC.Props.C37_to_and_fro_partial", "PyCNC.Props.C37_any_arithmetic", "PyCNC.Props.C37_refuted"], "note": "Exact arithmetic for every arc on steps, every prefix of the iteration, and the sense of rotation; false of the code in planes of two axes with different steps unless the radius is a whole number of steps."},
  {"property": "C38", "status": "proved", "theorems": ["PyCNC.Props.C38_exact", "PyCNC.Props.C38_binary64"], "note": "Exact arithmetic and binary64; any coefficients, any clock."},
  {"property": "C39", "status": "proved", "theorems": ["PyCNC.Props.C39_fixed", "PyCNC.Props.C39_fixed_iff"], "note": "Soundness and persistence in any arithmetic with any clock; equivalence in exact arithmetic with a clock that does not go backwards."},
  {"property": "C40", "status": "proved", "theorems": ["PyCNC.Props.C40_off_after_stop"], "note": "Any arithmetic, all schedules, sensors and clocks. A second stop() may call control(0) again."},
  {"property": "C41", "status": "partial", "theorems": ["PyCNC.Props.C41_stop_returns_partial", "PyCNC.Props.C41_refuted", "PyCNC.Props.C41_second_stop_refuted"], "note": "Proved for the first stop() of fair runs without sensor faults; false after one failed measurement (deadlock of the worker on its own lock) and for a second stop()."},
  {"property": "C42", "status": "partial", "theorems": ["PyCNC.Props.C42_off_partial", "PyCNC.Props.C42_refuted"], "note": "The heater is switched off and stays off; the timeout branch with the critical log entry is unreachable."},
  {"property": "C43", "status": "proved", "theorems": ["PyCNC.Props.C43_exact", "PyCNC.Props.C43_binary64"], "note": "Exact arithmetic and binary64."},
  {"property": "C44", "status": "proved", "theorems": ["PyCNC.Props.C44_program", "PyCNC.Props.C44_stream", "PyCNC.Props.C44_error_overrun"], "note": "For every event list, pin assignment and engine schedule that stays behind the writer. Trusted: the engine model. C44_error_overrun records what happens when move() fails after the engine was started."},
  {"property": "C45", "status": "proved", "theorems": ["PyCNC.Props.C45_never_early", "PyCNC.Props.C45_exact"], "note": "Pauses below 2^26 us (limit of the engine)."},
  {"property": "C46", "status": "proved", "theorems": ["PyCNC.Props.C46_behind", "PyCNC.Props.C46_memory_error"], "note": "For every outcome of move() and every progress of the engine."},
  {"property": "C47", "status": "proved", "theorems": ["PyCNC.Props.C47_init", "PyCNC.Props.C47_set", "PyCNC.Props.C47_clear", "PyCNC.Props.C47_read"], "note": "For all register contents and pins, over a model of the GPIO registers of the BCM2835."},
  {"property": "C48", "status": "proved", "theorems": ["PyCNC.Props.C48_waveform", "PyCNC.Props.C48_duty", "PyCNC.Props.C48_constant", "PyCNC.Props.C48_untouched", "PyCNC.Props.C48_stopped"], "note": "For every sequence of calls with the engine interleaved at any step; exact arithmetic for the block number."},
  {"property": "C49", "status": "partial", "theorems": ["PyCNC.Props.C49_removed_pin_driven_refuted", "PyCNC.Props.C49_stopped_high_refuted", "PyCNC.Props.C49_locked_partial"], "note": "False of the code: two interleavings after which a pin stays high for ever. Proved for all interleavings if the read-modify-write sections were protected by a lock."},
  {"property": "C50", "status": "partial", "theorems": ["PyCNC.Props.C50_python3_refuted", "PyCNC.Props.C50_python2_partial"], "note": "False with Python 3 (dictionary changed during iteration); proved for Python 2."},
  {"property": "C51", "status": "proved", "theorems": ["PyCNC.Props.C51_fed", "PyCNC.Props.C51_starved", "PyCNC.Props.C51_too_late", "PyCNC.Props.C51_thread"], "note": "For every history of block completions and calls of feed; time is counted in completed blocks, with a timed corollary."},
  {"property": "C52", "status": "proved", "theorems": ["PyCNC.Props.C52_calibrate", "PyCNC.Props.C52_terminates", "PyCNC.Props.C52_no_error", "PyCNC.Props.C52_stopped_refuted", "PyCNC.Props.C52_pins_low_refuted"], "note": "For every history of endstop levels, every clock and every speed of the DMA engine relative to the CPU. The refuted theorems are about two further expectations: a calibration that times out does not stop the engine, and a successful one can leave a step pin high."},
  {"property": "C53", "status": "proved", "theorems": ["PyCNC.Props.C53_thermistor", "PyCNC.Props.C53_voltage", "PyCNC.Props.C53_tiny_voltage"], "note": "For every code of the converter; below one code step the formula gives values below absolute zero."},
  {"property": "C54", "status": "partial", "theorems": ["PyCNC.Props.C54_available_partial", "PyCNC.Props.C54_blocked_after_error", "PyCNC.Props.C54_refuted"], "note": "False of the code: a bus error leaves the lock held. Partial: while the bus reports no error."},
  {"property": "C55", "status": "partial", "theorems": ["PyCNC.Props.C55_stops_at_first_error", "PyCNC.Props.C55_released_partial", "PyCNC.Props.C55_refuted"], "note": "The first half (stops at the first failing line) is proved for all files and machines. The second half is false: exceptions other than the two caught ones escape without release(). Partial: plain lines in exact arithmetic."},
  {"property": "C56", "status": "partial", "theorems": ["PyCNC.Props.C56_session", "PyCNC.Props.C56_survives_partial", "PyCNC.Props.C56_refuted"], "note": "The session is characterised completely for all inputs. False of the code: uncaught exceptions and end of input end the program without release(). Partial: plain lines in exact arithmetic."},
  {"property": "C57", "status": "partial", "theorems": ["PyCNC.Props.C57_program_partial", "PyCNC.Props.C57_line_partial", "PyCNC.Props.C57_target", "PyCNC.Props.C57_exact", "PyCNC.Props.C57_drift", "PyCNC.Props.C57_example", "PyCNC.Props.C57_refuted"], "note": "False of the code without a bound on the extrusion: G1X0.01E10000000000 is accepted, and its generator raises ZeroDivisionError before the first pulse (C57_refuted). Partial: exact arithmetic, at most 9999 mm of extrusion per line, PlainMachine restricts the configuration to realistic sizes with decimal steps of X, Y, Z and automatic velocity adjustment. From the text of the program (parse_line and do_line) to the pulses, extruder included. C57_drift bounds the distance between the extruder position in millimetres and its steps."},
  {"property": "C58", "status": "partial", "theorems": ["PyCNC.Props.C58_linear", "PyCNC.Props.C58_linear_default", "PyCNC.Props.C58_refuted", "PyCNC.Props.C58_circle_partial"], "note": "Binary64. Proved for linear moves of up to 10 m per axis (10^6 steps with the default configuration). False of the code for arcs: the conversion of the radius truncates and may lose a step (C58_refuted, radius 0.29 mm); C58_circle_partial bounds the loss by one step, XY plane with equal steps on both axes."},
  {"property": "C59", "status": "proved", "theorems": ["PyCNC.Props.C59_wait"], "note": "Any arithmetic, all schedules."},
  {"property": "C60", "status": "proved", "theorems": ["PyCNC.Props.C60_inverse"], "note": "Exact arithmetic."},
  {"property": "C61", "status": "proved", "theorems": ["PyCNC.Props.C61_decimal_value", "PyCNC.Props.C61_value_error"], "note": "Exact decimal value, before the conversion to binary64."},
  {"property": "C62", "status": "proved", "theorems": ["PyCNC.Props.C62_measure", "PyCNC.Props.C62_traffic"], "note": "All channels, all conversion times and results; hardware model of the ADS1115 (Spec/Ads.lean), chip idle at the start of the call. C62_traffic: what is sent, however the call ends."},
  {"property": "C63", "status": "proved", "theorems": ["PyCNC.Props.C63_angle", "PyCNC.Props.C63_centre"], "note": "Binary64."},
  {"property": "C64", "status": "partial", "theorems": ["PyCNC.Props.C64_sound", "PyCNC.Props.C64_linear_partial", "PyCNC.Props.C64_machine_partial", "PyCNC.Props.C64_circular_refuted"], "note": "What passes the assertions of the virtual machine is correct, in any arithmetic; straight moves pass (exact arithmetic, automatic velocity adjustment, less than 10^6 steps per second). False for arcs: an accepted arc makes the virtual machine stop with AssertionError."},
  {"property": "C65", "status": "proved", "theorems": ["PyCNC.Props.C65_steps", "PyCNC.Props.C65_position"], "note": "C65_steps for any arithmetic, C65_position for exact arithmetic. The moves of a history, straight or arcs, reach the drivers unchanged. Pulses of hal.calibrate are not counted."},
  {"property": "C66", "status": "partial", "theorems": ["PyCNC.Props.C66_move", "PyCNC.Props.C66_program_partial", "PyCNC.Props.C66_example", "PyCNC.Props.C66_refuted"], "note": "Exact arithmetic, at least ten steps per millimetre, buffer with room for the longest move of the program. Programs as in C57: at most 9999 mm of extrusion in a line. C66_refuted: for G1E3000, which program and interpreter accept, the move cannot be carried out with the 30 MB buffer."},
  {"property": "C67", "status": "partial", "theorems": ["PyCNC.Props.C67_init", "PyCNC.Props.C67_glitch_refuted", "PyCNC.Props.C67_quiet_partial"], "note": "State after init proved for all register states. The claim about the moments during the call is refuted: outputs are enabled before their latches are cleared; proved when the latches were clear before."},
  {"property": "C68", "status": "partial", "theorems": ["PyCNC.Props.C68_python2_partial", "PyCNC.Props.C68_deinit", "PyCNC.Props.C68_python3_refuted", "PyCNC.Props.C68_release"], "note": "Proved for Python 2, and for Python 3 when spindle and heaters are off before, which release() ensures. Refuted for Python 3 with an output on."},
  {"property": "C69", "status": "proved", "theorems": ["PyCNC.Props.C69_constant", "PyCNC.Props.C69_waveform", "PyCNC.Props.C69_range", "PyCNC.Props.C69_switches", "PyCNC.Props.C69_outputs", "PyCNC.Props.C69_machine", "PyCNC.Props.C69_moves"], "note": "Control functions executed one at a time (concurrency is C49)."},
  {"property": "C70", "status": "partial", "theorems": ["PyCNC.Props.C70_waits_partial", "PyCNC.Props.C70_m84_refuted"], "note": "Proved for spindle, pause and homing; refuted for M84."},
  {"property": "C71", "status": "proved", "theorems": ["PyCNC.Props.C71_program", "PyCNC.Props.C71_no_drift", "PyCNC.Props.C71_velocity", "PyCNC.Props.C71_example", "PyCNC.Props.C71_tie_refuted"], "note": "The machine in binary64 (F64), the interpreter with real numbers. C71_tie_refuted shows that the condition on points half way between two steps is needed: G1X0.235 makes 23 steps, with real numbers 23.5 is rounded to 24."},
  {"property": "C72", "status": "proved", "theorems": ["PyCNC.Props.C72_move", "PyCNC.Props.C72_program", "PyCNC.Props.C72_position", "PyCNC.Props.C72_example"], "note": "Binary64 (F64). The hardware model is that of C44. At least ten steps per millimetre, buffer with room for the longest move of the program; programs as in C71."},
  {"property": "C73", "status": "proved", "theorems": ["PyCNC.Props.C73_run", "PyCNC.Props.C73_stop", "PyCNC.Props.C73_ask", "PyCNC.Props.C73_agree", "PyCNC.Props.C73_progress", "PyCNC.Props.C73_watchdog", "PyCNC.Props.C73_watchdog_works", "PyCNC.Props.C73_clock", "PyCNC.Props.C73_stream"], "note": "on a model of the registers of the DMA controller in which the engines may complete any number of blocks between two accesses"},
  {"property": "C74", "status": "partial", "theorems": ["PyCNC.Props.C74_memory", "PyCNC.Props.C74_given_back_partial", "PyCNC.Props.C74_lock_refuted", "PyCNC.Props.C74_quit_partial", "PyCNC.Props.C74_eof_refuted"], "note": "false when memory cannot be locked (it is lost) and when the process ends without deinit (the watchdog runs on in freed memory); proved for the import and for the end after deinit"},
  {"property": "C75", "status": "partial", "theorems": ["PyCNC.Props.C75_follows_circle_partial", "PyCNC.Props.C75_ordered_partial", "PyCNC.Props.C75_refuted"], "note": "exact arithmetic, every nearest-integer rounding; false for arcs whose end lies before their start in the same quarter (C34); planes of two axes with different steps only when the radius is a whole number of steps"},
  {"property": "C76", "status": "partial", "theorems": ["PyCNC.Props.C76_step_rate_partial", "PyCNC.Props.C76_feed_partial", "PyCNC.Props.C76_helix_partial", "PyCNC.Props.C76_refuted"], "note": "Exact arithmetic. All axes of all arcs whose end does not lie before the start in the same quarter, helical ones and those with extrusion included (C76_helix_partial), but for the last step of an axis, which keeps only half the distance when the end is not a whole number of steps from the centre (C76_refuted)."},
  {"property": "C77", "status": "partial", "theorems": ["PyCNC.Props.C77_acceleration_partial", "PyCNC.Props.C77_helix_partial", "PyCNC.Props.C77_short_refuted", "PyCNC.Props.C77_centre_refuted", "PyCNC.Props.C77_rest_refuted"], "note": "Exact arithmetic; proved for the acceleration along the circle, of the third axis and of the extruder on arcs that are long enough to reach their speed and do not end before their start in the same quarter; for the rest at the end only on arcs of two axes. False for short arcs (C77_short_refuted), for the end of helices (C77_rest_refuted) and, on all fast arcs, for the acceleration of the single motors (C77_centre_refuted)."},
  {"property": "C78", "status": "partial", "theorems": ["PyCNC.Props.C78_program_partial", "PyCNC.Props.C78_line_partial", "PyCNC.Props.C78_stays_on_table_partial", "PyCNC.Props.C78_refuted"], "note": "Exact arithmetic. Proved for programs whose accepted arcs end on their circle on a horizontal, vertical or diagonal line through the centre (or at the start), not before the start in the same quarter, with the whole circle on the table and the extruder at rest. False of other arcs (C78_refuted)."},
  {"property": "C79", "status": "partial", "theorems": ["PyCNC.Props.C79_borders_partial", "PyCNC.Props.C79_full", "PyCNC.Props.C79_refuted", "PyCNC.Props.C79_turn_refuted"], "note": "False of the last of these points (C79_refuted: X204 on a table of 200 mm), and of all of them when the computed end is rounded to the start (C79_turn_refuted: an arc of half a degree becomes an unchecked full turn). Partial: all but the last for every arc of less than a full turn; all points of every programmed full circle (C79_full). Exact arithmetic."},
  {"property": "C80", "status": "partial", "theorems": ["PyCNC.Props.C80_feed", "PyCNC.Props.C80_arc_partial", "PyCNC.Props.C80_helix_partial", "PyCNC.Props.C80_refuted"], "note": "Complete for straight moves of realistic size (C80_feed). Arcs: all those in a plane (C80_arc_partial) and all helical ones and those with extrusion (C80_helix_partial), short or long, with any feed. False for arcs whose end lies before their start in the same quarter of the circle (C80_refuted). Exact arithmetic."},
  {"property": "C81", "status": "partial", "theorems": ["PyCNC.Props.C81_lag_partial", "PyCNC.Props.C81_moves_partial", "PyCNC.Props.C81_single_partial", "PyCNC.Props.C81_refuted"], "note": "False of the code: lags add up and are never made up for; in the move X40.6 Y40.59 at F3444.6 all pulses from some point on are at least 9 us late. Partial: the exact lag of every pulse for all generators in any arithmetic (C81_lag_partial), at most one pulse length per pulse before it in straight moves (C81_moves_partial), no lag at all in moves of one motor (C81_single_partial)."},
  {"property": "C82", "status": "partial", "theorems": ["PyCNC.Props.C82_nothing_partial", "PyCNC.Props.C82_refuted"], "note": "False of the code with INSTANT_RUN: G1E3000 on the default machine starts the engine, then raises MemoryError, and the chain of control blocks has no end. Partial: dma.run is never reached before an exception, and the stream is only started with INSTANT_RUN and for a pulse more than 100 ms after an earlier point of the move, in any arithmetic."},
  {"property": "C83", "status": "partial", "theorems": ["PyCNC.Props.C83_rapid_partial", "PyCNC.Props.C83_refuted"], "note": "False of the code: the speed is also capped by the limit of the fastest axis, so G0X100Y50 runs at 24000 mm/min although 26832 are possible. Partial: no axis exceeds its limit, and one mm/min more is too fast for some axis or the speed is that cap. Exact arithmetic."},
  {"property": "C84", "status": "partial", "theorems": ["PyCNC.Props.C84_proportion_partial", "PyCNC.Props.C84_refuted"], "note": "All ordinary arcs, helical ones and those with extrusion included. False for arcs whose end lies before their start in the same quarter of the circle (C84_refuted). Exact arithmetic."},
  {"property": "C85", "status": "partial", "theorems": ["PyCNC.Props.C85_stream", "PyCNC.Props.C85_move", "PyCNC.Props.C85_program_partial", "PyCNC.Props.C85_example", "PyCNC.Props.C85_room", "PyCNC.Props.C85_room_refuted"], "note": "Exact arithmetic, at least 50 steps per millimetre, acceleration of at least 200 mm/s^2, buffer with room for the biggest circle on the table. Single arcs: all of ordinary size whose end does not lie before their start in the same quarter. Programs as in C78. C85_room_refuted: with 1000 steps per millimetre the biggest circle on the default table does not fit into the 30 MB buffer."},
  {"property": "C86", "status": "partial", "theorems": ["PyCNC.Props.C86_program_partial", "PyCNC.Props.C86_line_partial", "PyCNC.Props.C86_accepted_partial", "PyCNC.Props.C86_pins_partial", "PyCNC.Props.C86_example", "PyCNC.Props.C86_refuted"], "note": "Exact arithmetic. Programs given as text, arcs with ends on or off their circles (FairArc): the end is in another quarter than the start and not close to the border of a quarter, or on the circle and not before the start in the same quarter. Whether an arc off its circle is accepted is only shown for ends straight beside, above or below the centre (C86_accepted_partial); for others it depends on the rounding (C36_end_refuted). C86_refuted: an accepted arc to the same quarter leaves the motors where they were."},
  {"property": "C87", "status": "proved", "theorems": ["PyCNC.Props.C87_pulses"], "note": "Binary64 (F64), every nearest-integer rounding, configurations SaneCfg with decimal velocity limits up to 1 m/s and automatic velocity adjustment, moves up to 10 m per axis, feeds from 1 mm/min."},
  {"property": "C88", "status": "partial", "theorems": ["PyCNC.Props.C88_move_partial", "PyCNC.Props.C88_program", "PyCNC.Props.C88_refuted"], "note": "Binary64. Proved for distances that are not close to the middle of two ten-decimal numbers (all distances of the default configuration), at most 700000 steps per second, one step per mm or more; for single moves and for whole programs run with the virtual machine as back end. C88_refuted: with 837 steps per mm of extrusion the virtual machine stops with AssertionError at G1E1024.737."},
  {"property": "C89", "status": "partial", "theorems": ["PyCNC.Props.C89_adjusted_partial", "PyCNC.Props.C89_single_partial", "PyCNC.Props.C89_refuted"], "note": "Exact arithmetic. Proved for all G0 lines with AUTO_VELOCITY_ADJUSTMENT, and without it for moves of one axis. C89_refuted: without adjustment G0X4.0049Z2.9989 is refused, because the speed is chosen before the move is rounded to steps."},
  {"property": "C90", "status": "partial", "theorems": ["PyCNC.Props.C90_arc_partial", "PyCNC.Props.C90_back_partial", "PyCNC.Props.C90_near_partial", "PyCNC.Props.C90_survives", "PyCNC.Props.C90_refuted"], "note": "Binary64. Proved for flat arcs in a plane whose axes have the same step, radius up to 10^4 steps, when the radius and the start in steps survive conversion to mm and back; within two steps when only the radius does. C90_refuted: clockwise from (0.57, 0.76) to (0.76, -0.57) at 100 steps per mm, X ends two steps away. Missing: planes with different steps; helices and extrusion are C91."},
  {"property": "C91", "status": "partial", "theorems": ["PyCNC.Props.C91_helix_partial", "PyCNC.Props.C91_back_partial", "PyCNC.Props.C91_near_partial", "PyCNC.Props.C91_refuted"], "note": "Binary64. Proved for helices and arcs with extrusion in a plane whose axes have the same step, radius up to 10^4 steps, when no part of the motion is less than about a thousandth of the whole and the numbers of steps survive conversion to mm and back; within two steps when only the radius does. C91_refuted: G2 X1 Y1 Z0.0175 I1 sends Z 8 pulses instead of 7. Missing: planes with different steps, tiny parts."},
  {"property": "C92", "status": "partial", "theorems": ["PyCNC.Props.C92_program_partial", "PyCNC.Props.C92_line_partial", "PyCNC.Props.C92_refuted"], "note": "Binary64. Proved for programs whose arcs are right in exact arithmetic (C78), flat, end at their start or straight beside, above or below their centre, in a plane whose axes have the same step, with a radius up to 10^4 steps, when the steps of the radius and of the centre survive conversion to mm and back. C92_refuted: G1X100Y100F600, G2J-0.29 is right in exact arithmetic and in binary64 leaves the motors four steps beside the position. Missing: helices, ends on a diagonal, planes with different steps."},
  {"property": "C93", "status": "partial", "theorems": ["PyCNC.Props.C93_program_partial", "PyCNC.Props.C93_line_partial", "PyCNC.Props.C93_accepted_partial", "PyCNC.Props.C93_refuted", "PyCNC.Props.C93_example"], "note": "Binary64. Proved for programs whose arcs are flat and either those of C92 or end in another quarter of the circle than they start in, not close to the border of a quarter, on the circle or not, in a plane whose axes have the same step, with a radius up to 10^4 steps, when the steps of the radius and of the centre survive conversion to mm and back. That the machine accepts the arc is proved when the radius is a whole number of steps and the end is straight beside, above or below the centre (C93_accepted_partial). C93_refuted: G1X100Y100F600, G2J-0.29 leaves the machine in no state of the interpreter. Missing: helices, ends in the quarter of the start, planes with different steps."},
  {"property": "C94", "status": "proved", "theorems": ["PyCNC.Props.C94_accepted"], "note": "Binary64, for machines with automatic adjustment of velocities, from any state. Arcs that also move the third axis or the extruder are outside the claim: they are refused (C32_circular_refuted)."},
  {"property": "C95", "status": "proved", "theorems": ["PyCNC.Props.C95_straight", "PyCNC.Props.C95_example"], "note": "Binary64, for machines with automatic adjustment of velocities, from any state, hardware without errors. The displacement is the one read from the line; how it follows from the text and the state is C57 and C71."},
  {"property": "C96", "status": "partial", "theorems": ["PyCNC.Props.C96_home_partial", "PyCNC.Props.C96_program_partial", "PyCNC.Props.C96_refuted", "PyCNC.Props.C96_example"], "note": "Binary64. Proved for steps of X, Y and Z that are decimal numbers, from states that programs of straight moves reach, for lines without a feed and hardware without errors. False for other steps: with 300 steps per mm G28 is refused after two moves of one step."},
  {"property": "C97", "status": "proved", "theorems": ["PyCNC.Props.C97_program", "PyCNC.Props.C97_example"], "note": "Binary64, decimal steps, lines as in C71 and lines G28 without a feed, hardware without errors. The conditions on the lines are TameJob; other steps are refuted in C96."},
  {"property": "C98", "status": "partial", "theorems": ["PyCNC.Props.C98_program_partial", "PyCNC.Props.C98_example"], "note": "Binary64, decimal steps, lines as in C92 and lines G28 without a feed; end switches that work, or that do not. Missing: arcs that are not those of C92 (C92_refuted), numbers that are not small."},
  {"property": "C99", "status": "proved", "theorems": ["PyCNC.Props.C99_program", "PyCNC.Props.C99_example"], "note": "Binary64, decimal steps, at least 10 steps/mm, a buffer with room for the longest move; lines as in C97. The pulses of the calibration itself are not counted (they are the subject of the properties about calibrate)."}
]}
