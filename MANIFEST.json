{
 "claims": [
  {
   "property": "C01",
   "status": "proved",
   "theorems": [
    "Moovr.Props.event_queue_refines",
    "Moovr.Props.event_queue_fifo",
    "Moovr.Props.event_queue_bounded"
   ],
   "note": "refinement to a list queue; loss-free FIFO over every history"
  },
  {
   "property": "C02",
   "status": "proved",
   "theorems": [
    "Moovr.Props.event_queue_error_reporting",
    "Moovr.Props.event_queue_incident_harmless"
   ],
   "note": ""
  },
  {
   "property": "C03",
   "status": "proved",
   "theorems": [
    "Moovr.Props.event_queue_high_water"
   ],
   "note": ""
  },
  {
   "property": "C04",
   "status": "proved",
   "theorems": [
    "Moovr.Props.debounce_reports_justified_changes",
    "Moovr.Props.debounce_spec_deterministic",
    "Moovr.Props.debounce_five_samples_settle",
    "Moovr.Props.debounce_ignores_glitches"
   ],
   "note": ""
  },
  {
   "property": "C05",
   "status": "proved",
   "theorems": [
    "Moovr.Props.debounce_events_alternate",
    "Moovr.Props.debounce_open_closed"
   ],
   "note": ""
  },
  {
   "property": "C06",
   "status": "proved",
   "theorems": [
    "Moovr.Props.debounce_events_apart"
   ],
   "note": ""
  },
  {
   "property": "C07",
   "status": "proved",
   "theorems": [
    "Moovr.Props.host_refines",
    "Moovr.Props.host_rx_lossless",
    "Moovr.Props.host_message_is_line",
    "Moovr.Props.host_message_length"
   ],
   "note": "calls atomic (interrupts inside calls: C11)"
  },
  {
   "property": "C08",
   "status": "proved",
   "theorems": [
    "Moovr.Props.host_refines",
    "Moovr.Props.host_hasMessage_iff"
   ],
   "note": "calls atomic"
  },
  {
   "property": "C09",
   "status": "proved",
   "theorems": [
    "Moovr.Props.host_refines",
    "Moovr.Props.host_tx_lossless",
    "Moovr.Props.host_tx_progress"
   ],
   "note": "calls atomic"
  },
  {
   "property": "C10",
   "status": "partial",
   "theorems": [
    "Moovr.Props.host_progress_partial",
    "Moovr.Props.host_progress_violated"
   ],
   "note": "false in the code: 256 bytes without line feed block the link; proved whenever a byte fits or a full line is stored"
  },
  {
   "property": "C11",
   "status": "partial",
   "theorems": [
    "Moovr.Props.host_race_partial",
    "Moovr.Props.host_race_violated"
   ],
   "note": "false in the code without interrupt masking (lost byte witness); proved for masked executions"
  },
  {
   "property": "C12",
   "status": "proved",
   "theorems": [
    "Moovr.Props.step_buffer_signals_fifo",
    "Moovr.Props.step_buffer_signals_lossless",
    "Moovr.Props.step_buffer_time_shift"
   ],
   "note": "calls atomic (write is executed with the reading interrupt disabled)"
  },
  {
   "property": "C13",
   "status": "proved",
   "theorems": [
    "Moovr.Props.pins_follow_waveform",
    "Moovr.Props.step_buffer_time_shift"
   ],
   "note": "timer hardware (reload on expiry, period LDVAL+1) is trusted; interrupt latency not modelled"
  },
  {
   "property": "C14",
   "status": "proved",
   "theorems": [
    "Moovr.Props.step_buffer_time_accounting",
    "Moovr.Props.step_buffer_time_pending"
   ],
   "note": "exact modulo 2^32 in every history"
  },
  {
   "property": "C15",
   "status": "proved",
   "theorems": [
    "Moovr.Props.step_buffer_error_reporting",
    "Moovr.Props.step_buffer_incident_harmless"
   ],
   "note": ""
  },
  {
   "property": "C16",
   "status": "partial",
   "theorems": [
    "Moovr.Props.step_buffer_init_partial",
    "Moovr.Props.step_buffer_init_returns_iff",
    "Moovr.Props.step_buffer_init_violated"
   ],
   "note": "false in the code for some constructor arguments; exact condition proved"
  },
  {
   "property": "C17",
   "status": "partial",
   "theorems": [
    "Moovr.Props.fill_loop_partial",
    "Moovr.Props.fill_loop_three_ticks_partial",
    "Moovr.Props.fill_loop_violated"
   ],
   "note": "false in the code for dense outputs in the shipped configuration; proved when any 254 consecutive entries last 750 ticks"
  },
  {
   "property": "C18",
   "status": "proved",
   "theorems": [
    "Moovr.Props.step_pulse_well_formed",
    "Moovr.Props.step_signals_exact"
   ],
   "note": ""
  },
  {
   "property": "C19",
   "status": "partial",
   "theorems": [
    "Moovr.Props.step_count_partial",
    "Moovr.Props.step_signals_exact",
    "Moovr.Props.step_count_violated"
   ],
   "note": "false for commands on consecutive ticks; proved otherwise, and exact waveform for all command sequences"
  },
  {
   "property": "C20",
   "status": "partial",
   "theorems": [
    "Moovr.Props.step_axis_isolation_partial",
    "Moovr.Props.step_axis_guard_violated"
   ],
   "note": "guard is axis <= nmbrAxis: axis number nmbrAxis is not rejected"
  },
  {
   "property": "C21",
   "status": "proved",
   "theorems": [
    "Moovr.Props.step_output_lossless",
    "Moovr.Props.step_output_justified"
   ],
   "note": ""
  },
  {
   "property": "C22",
   "status": "proved",
   "theorems": [
    "Moovr.Props.motion_entry_duration"
   ],
   "note": ""
  },
  {
   "property": "C23",
   "status": "partial",
   "theorems": [
    "Moovr.Props.motion_position_is_net_steps",
    "Moovr.Props.motion_entries_are_waveform",
    "Moovr.Props.motion_position_pulses_partial"
   ],
   "note": "position = net step commands in every history; entries = waveform of the commands in every history; position = pulses on the wire when no axis is commanded on consecutive ticks (C19), which C76 proves for executed programs"
  },
  {
   "property": "C24",
   "status": "proved",
   "theorems": [
    "Moovr.Props.motion_calc_returns",
    "Moovr.Props.motion_history_returns",
    "Moovr.Props.motion_entry_duration"
   ],
   "note": "for arbitrary law-free arithmetic, so including NaN and infinities"
  },
  {
   "property": "C25",
   "status": "partial",
   "theorems": [
    "Moovr.Props.motion_history_refines_partial",
    "Moovr.Props.motion_fifo_partial",
    "Moovr.Props.motion_only_stop_on_empty",
    "Moovr.Props.motion_stop_empty_violated"
   ],
   "note": "false in the code after stop() on an empty queue followed by a calculation; proved for all histories without that"
  },
  {
   "property": "C26",
   "status": "partial",
   "theorems": [
    "Moovr.Props.motion_history_refines_partial",
    "Moovr.Props.motion_only_stop_on_empty",
    "Moovr.Props.motion_stop_empty_violated"
   ],
   "note": "as C25"
  },
  {
   "property": "C27",
   "status": "partial",
   "theorems": [
    "Moovr.Props.motion_stop_keeps_queue_partial",
    "Moovr.Props.motion_history_refines_partial",
    "Moovr.Props.motion_stop_empty_violated"
   ],
   "note": "false in the code: stop() on an empty queue, then a calculation, wraps the level to 2^32-1"
  },
  {
   "property": "C28",
   "status": "proved",
   "theorems": [
    "Moovr.Props.one_step_per_tick"
   ],
   "note": "exact real arithmetic with IEEE infinities and NaN (floating-point rounding not modelled)"
  },
  {
   "property": "C29",
   "status": "proved",
   "theorems": [
    "Moovr.Props.position_tracks"
   ],
   "note": "exact real arithmetic with IEEE infinities and NaN (floating-point rounding not modelled)"
  },
  {
   "property": "C30",
   "status": "proved",
   "theorems": [
    "Moovr.Props.no_chatter",
    "Moovr.Props.standstill"
   ],
   "note": "exact real arithmetic with IEEE infinities and NaN (floating-point rounding not modelled)"
  },
  {
   "property": "C31",
   "status": "proved",
   "theorems": [
    "Moovr.Props.phase_endpoints"
   ],
   "note": "exact real arithmetic (floating-point rounding not modelled)"
  },
  {
   "property": "C32",
   "status": "proved",
   "theorems": [
    "Moovr.Props.phase_derivatives"
   ],
   "note": "exact real arithmetic (floating-point rounding not modelled)"
  },
  {
   "property": "C33",
   "status": "proved",
   "theorems": [
    "Moovr.Props.phase_bounds"
   ],
   "note": "exact real arithmetic (floating-point rounding not modelled)"
  },
  {
   "property": "C34",
   "status": "proved",
   "theorems": [
    "Moovr.Props.plan_covers_length",
    "Moovr.Props.request_covers_length",
    "Moovr.Props.request_feasible",
    "Moovr.Props.plan_no_stop"
   ],
   "note": "exact real arithmetic with IEEE infinities and NaN (floating-point rounding not modelled)"
  },
  {
   "property": "C35",
   "status": "proved",
   "theorems": [
    "Moovr.Props.plan_speed_limit"
   ],
   "note": "exact real arithmetic with IEEE infinities and NaN (floating-point rounding not modelled)"
  },
  {
   "property": "C36",
   "status": "proved",
   "theorems": [
    "Moovr.Props.plan_forward"
   ],
   "note": "exact real arithmetic with IEEE infinities and NaN (floating-point rounding not modelled)"
  },
  {
   "property": "C37",
   "status": "partial",
   "theorems": [
    "Moovr.Props.replan_continuous_partial",
    "Moovr.Props.replan_violated"
   ],
   "note": "false in the code in the acceleration phase (position jumps); proved outside of it; exact real arithmetic with IEEE infinities and NaN (floating-point rounding not modelled)"
  },
  {
   "property": "C38",
   "status": "partial",
   "theorems": [
    "Moovr.Props.stop_plan_rests",
    "Moovr.Props.stop_request_partial",
    "Moovr.Props.stop_violated"
   ],
   "note": "false in the code for a stop in the acceleration phase; proved outside of it; exact real arithmetic with IEEE infinities and NaN (floating-point rounding not modelled)"
  },
  {
   "property": "C39",
   "status": "proved",
   "theorems": [
    "Moovr.Props.axis_limits"
   ],
   "note": "exact real arithmetic with IEEE infinities and NaN (floating-point rounding not modelled)"
  },
  {
   "property": "C40",
   "status": "proved",
   "theorems": [
    "Moovr.Props.straight_path"
   ],
   "note": "exact real arithmetic with IEEE infinities and NaN (floating-point rounding not modelled)"
  },
  {
   "property": "C41",
   "status": "proved",
   "theorems": [
    "Moovr.Props.arc_path"
   ],
   "note": "the start and end points in terms of the start angle and arc angle; C52 relates these to the G-code words; exact real arithmetic with IEEE infinities and NaN (floating-point rounding not modelled)"
  },
  {
   "property": "C42",
   "status": "proved",
   "theorems": [
    "Moovr.Props.reading_ignores_layout"
   ],
   "note": ""
  },
  {
   "property": "C43",
   "status": "partial",
   "theorems": [
    "Moovr.Props.reading_in_bounds_partial",
    "Moovr.Props.reading_short_line",
    "Moovr.Props.reading_overrun_violated"
   ],
   "note": "false in the code for lines with 256 or more significant characters"
  },
  {
   "property": "C44",
   "status": "partial",
   "theorems": [
    "Moovr.Props.round_trip_partial",
    "Moovr.Props.numbers_read_back",
    "Moovr.Props.round_trip_violated",
    "Moovr.Props.code_conversion_violated"
   ],
   "note": "false for 256-character lines; G and M numbers of -0.1 or less (or 2^32/10 or more) have undefined behaviour; number values exact (no rounding)"
  },
  {
   "property": "C45",
   "status": "partial",
   "theorems": [
    "Moovr.Props.collisions_rejected_partial",
    "Moovr.Props.collisions_violated"
   ],
   "note": "false in the code for M48/M49, G59.1-G59.3 and T"
  },
  {
   "property": "C46",
   "status": "partial",
   "theorems": [
    "Moovr.Props.modal_settings_partial",
    "Moovr.Props.dwell_settings",
    "Moovr.Props.modal_settings_violated"
   ],
   "note": "false in the code for blocks with G4 (later settings are skipped) and for a motion word beside G53"
  },
  {
   "property": "C47",
   "status": "partial",
   "theorems": [
    "Moovr.Props.motions_connect_partial",
    "Moovr.Props.motions_connect_violated"
   ],
   "note": "false in the code for dwells with axis words and for G53 (moves the position without a reported motion)"
  },
  {
   "property": "C48",
   "status": "partial",
   "theorems": [
    "Moovr.Props.mentioned_axes_partial",
    "Moovr.Props.unmentioned_axes_partial",
    "Moovr.Props.unmentioned_axes_violated"
   ],
   "note": "axes with a word: proved for all executions; axes without a word: false in the code in incremental mode and after a rejected G1"
  },
  {
   "property": "C49",
   "status": "partial",
   "theorems": [
    "Moovr.Props.units_call_partial",
    "Moovr.Props.units_partial",
    "Moovr.Props.unit_switch_violated"
   ],
   "note": "exact arithmetic; programs staying in one unit; false in the code for a switch of units inside a program (unmentioned axes are reinterpreted)"
  },
  {
   "property": "C50",
   "status": "partial",
   "theorems": [
    "Moovr.Props.feed_required_partial",
    "Moovr.Props.feed_speed",
    "Moovr.Props.feed_violated"
   ],
   "note": "the speed is proved for every feed motion, that a feed rate is required only for G1; false in the code for G2/G3, for G53 and for motions by axis words alone"
  },
  {
   "property": "C51",
   "status": "partial",
   "theorems": [
    "Moovr.Props.arc_plane_partial",
    "Moovr.Props.arc_plane_violated"
   ],
   "note": "false in the code for G18 and G19 (axis pairs interchanged)"
  },
  {
   "property": "C52",
   "status": "proved",
   "theorems": [
    "Moovr.Props.arc_center_radius",
    "Moovr.Props.arc_center_offsets",
    "Moovr.Props.arc_offset_kept"
   ],
   "note": "exact arithmetic; an offset that is not programmed keeps the value of an earlier block (arc_offset_kept)"
  },
  {
   "property": "C53",
   "status": "proved",
   "theorems": [
    "Moovr.Props.arc_angles"
   ],
   "note": "exact arithmetic"
  },
  {
   "property": "C54",
   "status": "partial",
   "theorems": [
    "Moovr.Props.peripherals_partial",
    "Moovr.Props.coolant_violated"
   ],
   "note": "proved with M7 = flood, M8 = mist as coded; the standard and the collision check of the block have them the other way round"
  },
  {
   "property": "C55",
   "status": "partial",
   "theorems": [
    "Moovr.Props.dwell_partial",
    "Moovr.Props.dwell_violated"
   ],
   "note": "the position is not unchanged for dwells with axis words or in incremental mode"
  },
  {
   "property": "C56",
   "status": "partial",
   "theorems": [
    "Moovr.Props.outcome_partial",
    "Moovr.Props.outcome_violated"
   ],
   "note": "false in the code for InvalidFeedrate (motion type set) and for G53 (motion not reported)"
  },
  {
   "property": "C57",
   "status": "partial",
   "theorems": [
    "Moovr.Props.loop_plain_partial",
    "Moovr.Props.loop_no_axes_partial",
    "Moovr.Props.loop_violated"
   ],
   "note": "false in the code for blocks with ignored words, colliding words and dwells"
  },
  {
   "property": "C58",
   "status": "proved",
   "theorems": [
    "Moovr.Props.homing_complete",
    "Moovr.Props.homing_axes"
   ],
   "note": "axes X, Y, Z; standstill is what the motionStopped event handled after the offset move says"
  },
  {
   "property": "C59",
   "status": "proved",
   "theorems": [
    "Moovr.Props.homing_reacts",
    "Moovr.Props.homing_ignores"
   ],
   "note": "component level: every sequence of calls and every environment"
  },
  {
   "property": "C60",
   "status": "proved",
   "theorems": [
    "Moovr.Props.homing_moves",
    "Moovr.Props.homing_moves_start"
   ],
   "note": "component level: every sequence of calls and every environment"
  },
  {
   "property": "C61",
   "status": "proved",
   "theorems": [
    "Moovr.Props.homing_impossible"
   ],
   "note": "component level"
  },
  {
   "property": "C62",
   "status": "proved",
   "theorems": [
    "Moovr.Props.inputs_wired",
    "Moovr.Props.inputs_beyond"
   ],
   "note": "port words are arbitrary"
  },
  {
   "property": "C63",
   "status": "proved",
   "theorems": [
    "Moovr.Props.loop_changes",
    "Moovr.Props.loop_fifo",
    "Moovr.Props.loop_no_loss",
    "Moovr.Props.loop_one",
    "Moovr.Props.loop_homing"
   ],
   "note": "for every motion arithmetic and homing configuration; the number of calculations per iteration is arbitrary"
  },
  {
   "property": "C64",
   "status": "proved",
   "theorems": [
    "Moovr.Props.motion_executed"
   ],
   "note": "exact real arithmetic with IEEE infinities and NaN (floating-point rounding not modelled); any motion whose path is executable (straight or arc), planned by the model of the planner from rest; motions of more than 2^32 ticks are excluded (C66)"
  },
  {
   "property": "C65",
   "status": "proved",
   "theorems": [
    "Moovr.Props.work_coordinates",
    "Moovr.Props.machine_origin"
   ],
   "note": "no statement of the code sets an origin, so from reset all origins are zero"
  },
  {
   "property": "C66",
   "status": "partial",
   "theorems": [
    "Moovr.Props.motion_clock_partial",
    "Moovr.Props.motion_clock_calls",
    "Moovr.Props.motion_clock_wrap_violated",
    "Moovr.Props.exactTime_kit",
    "Moovr.Props.ends_kit"
   ],
   "note": "exact real times (shown to fit the arithmetic of the machine with infinities and NaN); durations in the queue not minus infinity; false in the code for motions sampled more than 2^32-1 times (32-bit sample index wraps)"
  },
  {
   "property": "C67",
   "status": "proved",
   "theorems": [
    "Moovr.Props.plan_full_speed",
    "Moovr.Props.plan_fastest"
   ],
   "note": "exact real arithmetic with IEEE infinities and NaN (floating-point rounding not modelled)"
  },
  {
   "property": "C68",
   "status": "partial",
   "theorems": [
    "Moovr.Props.restart_partial",
    "Moovr.Props.restart_violated"
   ],
   "note": "false in the code after a stop during the final deceleration (duration NaN); proved for stops short of the end point; exact real arithmetic with IEEE infinities and NaN (floating-point rounding not modelled)"
  },
  {
   "property": "C69",
   "status": "proved",
   "theorems": [
    "Moovr.Props.arc_limits"
   ],
   "note": "exact real arithmetic with IEEE infinities and NaN (floating-point rounding not modelled)"
  },
  {
   "property": "C70",
   "status": "partial",
   "theorems": [
    "Moovr.Props.bounds_partial",
    "Moovr.Props.bounds_violated"
   ],
   "note": "false in the code for blocks with I, J, K or R that are not arcs"
  },
  {
   "property": "C71",
   "status": "partial",
   "theorems": [
    "Moovr.Props.straight_leads",
    "Moovr.Props.arc_leads",
    "Moovr.Props.radius_finite",
    "Moovr.Props.arc_leads_violated"
   ],
   "note": "exact arithmetic; false in the code for I/J/K arcs whose ends are not equidistant from the centre (no check)"
  },
  {
   "property": "C72",
   "status": "proved",
   "theorems": [
    "Moovr.Props.arc_short_long"
   ],
   "note": "exact arithmetic"
  },
  {
   "property": "C73",
   "status": "proved",
   "theorems": [
    "Moovr.Props.shipped_switches",
    "Moovr.Props.shipped_axes"
   ],
   "note": "the shipped configuration"
  },
  {
   "property": "C74",
   "status": "proved",
   "theorems": [
    "Moovr.Props.program_executed"
   ],
   "note": "exact real arithmetic with IEEE infinities and NaN (floating-point rounding not modelled); any number of motions, appended before the start or while running; at most half a step per tick (0.1 on the shipped machine) and no motion shorter than a tick; motions of more than 2^32 ticks are excluded (C66)"
  },
  {
   "property": "C75",
   "status": "proved",
   "theorems": [
    "Moovr.Props.steps_apart",
    "Moovr.Props.cnc3axis_steps_apart"
   ],
   "note": "exact real arithmetic with IEEE infinities and NaN (floating-point rounding not modelled); for the programs of C74"
  },
  {
   "property": "C76",
   "status": "proved",
   "theorems": [
    "Moovr.Props.program_pulses",
    "Moovr.Props.program_spaced",
    "Moovr.Props.cnc3axis_separates",
    "Moovr.Props.configurations_execute",
    "Moovr.Props.plotter_steps_apart"
   ],
   "note": "exact real arithmetic with IEEE infinities and NaN (floating-point rounding not modelled); for the programs of C74"
  },
  {
   "property": "C77",
   "status": "partial",
   "theorems": [
    "Moovr.Props.homing_orders_partial",
    "Moovr.Props.homing_orders_first",
    "Moovr.Props.homing_queue_partial",
    "Moovr.Props.homing_orders_violated"
   ],
   "note": "holds for schedules in which a calculation reports standstill at most once and no stop is ordered after the move has ended; fails otherwise: the move ends by itself just before its switch closes"
  },
  {
   "property": "C78",
   "status": "partial",
   "theorems": [
    "Moovr.Props.homing_waits_partial",
    "Moovr.Props.homing_stuck",
    "Moovr.Props.homing_waits_violated"
   ],
   "note": "never waits in vain for a standstill (same schedules as C77, no event lost); waits forever for a switch that does not change, without an error"
  },
  {
   "property": "C79",
   "status": "partial",
   "theorems": [
    "Moovr.Props.names_states",
    "Moovr.Props.names_small",
    "Moovr.Props.names_event_partial",
    "Moovr.Props.names_gcode_partial",
    "Moovr.Props.log_identifies",
    "Moovr.Props.names_violated"
   ],
   "note": "the log of the main program identifies the handled events (proved for all runs); fails for motionStrategy (both called \"minimizeSpeed\"), the two errors of the event queue, two parse errors and three parse results"
  },
  {
   "property": "C80",
   "status": "partial",
   "theorems": [
    "Moovr.Props.version_fits",
    "Moovr.Props.version_text_partial",
    "Moovr.Props.version_text_violated"
   ],
   "note": "always fits; complete for components up to 999; larger ones are cut off"
  },
  {
   "property": "C81",
   "status": "proved",
   "theorems": [
    "Moovr.Props.motor_lines"
   ],
   "note": "registers as BitVec 32, set/clear semantics of the GPIO"
  },
  {
   "property": "C82",
   "status": "partial",
   "theorems": [
    "Moovr.Props.motors_disabled_partial",
    "Moovr.Props.motors_disabled_after_configure",
    "Moovr.Props.motors_disabled_violated"
   ],
   "note": "holds after the first initialize; during it, from the reset state, the enable lines are driven low before they are raised"
  },
  {
   "property": "C83",
   "status": "proved",
   "theorems": [
    "Moovr.Props.gcode_executable",
    "Moovr.Props.gcode_executed",
    "Moovr.Props.gcode_straight"
   ],
   "note": "composition of C47, C71 and C74; the conditions are part of the property; exact real arithmetic with IEEE infinities and NaN (floating-point rounding not modelled)"
  },
  {
   "property": "C84",
   "status": "partial",
   "theorems": [
    "Moovr.Props.motion_ends_partial",
    "Moovr.Props.motion_ends_violated",
    "Moovr.Props.traverse_nowhere"
   ],
   "note": "proved for programs of up to 32 connected motions of positive length (the conditions of C74); a traverse of length zero, as the interpreter makes of G0 to the present position, has an undefined duration and never ends; exact real arithmetic with IEEE infinities and NaN (floating-point rounding not modelled)"
  },
  {
   "property": "C85",
   "status": "partial",
   "theorems": [
    "Moovr.Props.pause_lasts_partial",
    "Moovr.Props.pause_lasts_violated",
    "Moovr.Props.pause_still_violated",
    "Moovr.Props.gcode_dwell"
   ],
   "note": "proved for a single dwell in a place of the queue used before by a started motion, if no axis is below the value that the conversion of NaN yields; in a place never used the old stop time 0 stops the controller at the first tick; axes below that value move; dwells between other motions are not covered"
  },
  {
   "property": "C86",
   "status": "partial",
   "theorems": [
    "Moovr.Props.homing_first_move",
    "Moovr.Props.shipped_first_move",
    "Moovr.Props.homing_move_partial",
    "Moovr.Props.shipped_move_partial"
   ],
   "note": "the first move for every schedule; the later ones for orderly schedules (no command while the controller still brakes, see C77/C78) and positions within the counters; covers the time until homing gives its next command, so the way the axis brakes after the switch closes is not included; exact real arithmetic with IEEE infinities and NaN (floating-point rounding not modelled)"
  },
  {
   "property": "C87",
   "status": "partial",
   "theorems": [
    "Moovr.Props.homing_one_axis_partial",
    "Moovr.Props.homing_one_step_partial"
   ],
   "note": "orderly schedules; exact real arithmetic with IEEE infinities and NaN (floating-point rounding not modelled)"
  },
  {
   "property": "C88",
   "status": "proved",
   "theorems": [
    "Moovr.Props.loop_motion_history"
   ],
   "note": ""
  },
  {
   "property": "C89",
   "status": "partial",
   "theorems": [
    "Moovr.Props.program_stops_and_resumes_partial"
   ],
   "note": "stops while the motion speeds up are excluded (they make the position jump, C37); the place at which the axes stand afterwards is not claimed for a stop that ends at the very end of the path (the position is NaN for one tick); motions short enough for a fourth of the tick counter; exact real arithmetic with IEEE infinities and NaN (floating-point rounding not modelled)"
  },
  {
   "property": "C90",
   "status": "partial",
   "theorems": [
    "Moovr.Props.program_stops_and_resumes_partial",
    "Moovr.Props.resume_at_end_never_ends",
    "Moovr.Props.ExecuteExample.resume_violated"
   ],
   "note": "as C89; violated if the stop ends at the very end of the path: after start() the motion never ends; exact real arithmetic with IEEE infinities and NaN (floating-point rounding not modelled)"
  },
  {
   "property": "C91",
   "status": "partial",
   "theorems": [
    "Moovr.Props.session_partial",
    "Moovr.Props.session_ends_partial",
    "Moovr.Props.program_can_stop",
    "Moovr.Props.program_can_start"
   ],
   "note": "stop() only while the motion in progress does not speed up (C37) and with room to stop before the end of its path (C90); start() in the state stopped, or while running if the motion in progress does not speed up and is not at its end; less than 2^32 ticks in all; exact real arithmetic with IEEE infinities and NaN (floating-point rounding not modelled)"
  },
  {
   "property": "C92",
   "status": "proved",
   "theorems": [
    "Moovr.Props.step_buffer_interrupt_safe",
    "Moovr.Props.step_buffer_left_full",
    "Moovr.Props.step_buffer_unguarded_violated"
   ],
   "note": "every load of the text is a load from memory; the members are not volatile, so a compiler keeping them in registers across calls is not covered; step_buffer_unguarded_violated shows that the two NVIC lines are needed"
  },
  {
   "property": "C93",
   "status": "proved",
   "theorems": [
    "Moovr.Props.clock_single",
    "Moovr.Props.clock_advances_violated"
   ],
   "note": "binary32 rounding to nearest even modelled in Model/Float32 (subnormals included, overflow not); beyond 2^22 samples the clock need not advance at each sample: clock_advances_violated has it standing still at sample 2^24"
  },
  {
   "property": "C94",
   "status": "proved",
   "theorems": [
    "Moovr.Props.one_step_per_tick_single",
    "Moovr.Props.position_tracks_single",
    "Moovr.Props.no_chatter_single"
   ],
   "note": "binary32 rounding as C93, both for fused and separate multiply-add; the computed positions are arbitrary numbers here; commanded positions above 2^22 steps are not covered"
  },
  {
   "property": "C95",
   "status": "proved",
   "theorems": [
    "Moovr.Props.path_single"
   ],
   "note": "binary32 rounding as C93; separate multiplications and additions (no contraction) in the profile; motions between two rests planned with maximizeSpeed and at least minLengthSProfile long (0 on the 3-axis machine)"
  },
  {
   "property": "C96",
   "status": "proved",
   "theorems": [
    "Moovr.Props.straight_motion_single",
    "Moovr.Props.idle_configured_single"
   ],
   "note": "straight motions executed alone (queue empty before) without stop() or override changes; binary32 rounding as C93, no contraction inside the speed profile; positions up to 300 mm, programmed speeds g of at least 0.1 mm/s with L^2 <= 99000 g^3 (from 1.5 mm/s on for every length), displacements of an axis of 0 or at least 2^-100 mm; arcs: C98, C100"
  },
  {
   "property": "C97",
   "status": "proved",
   "theorems": [
    "Moovr.Props.straight_motions_single"
   ],
   "note": "as C96: every motion from standstill to standstill; queues: C98"
  },
  {
   "property": "C98",
   "status": "proved",
   "theorems": [
    "Moovr.Props.queue_single",
    "Moovr.Props.queue_batch_single"
   ],
   "note": "motions from standstill to standstill, as C96 (no stop() or override changes, binary32 rounding as C93), straight or arcs as in C100, of at least 1/128 mm and at most 85 s, at 0.1 mm/s or more; start() is only called when stopped"
  },
  {
   "property": "C99",
   "status": "proved",
   "theorems": [
    "Moovr.Props.gcode_single"
   ],
   "note": "composition of C83 (interpreter with exact numbers) and C98 (binary32 in the controller), with the conditions of both; arcs with the end exactly on the circle"
  },
  {
   "property": "C100",
   "status": "proved",
   "theorems": [
    "Moovr.Props.arc_position_single",
    "Moovr.Props.arc_radius_single",
    "Moovr.Props.arc_limit_single"
   ],
   "note": "binary32 rounding as C93 (no overflow); cosf and sinf within 2^-23 for arguments up to 16 (assumed of the library), start angle at most 4, sweep at most 7 rad, radius from 1/64 to 100 mm"
  },
  {
   "property": "C101",
   "status": "partial",
   "theorems": [
    "Moovr.Props.buffer_room",
    "Moovr.Props.still_quiet",
    "Moovr.Props.program_buffer_room_partial",
    "Moovr.Props.program_buffer_room_violated",
    "Moovr.Props.diagonal_dense",
    "Moovr.Props.fill_loop_sharp"
   ],
   "note": "the code violates the full property (two axes at full speed: program_buffer_room_violated); proved for all programs in which only one axis moves, or two at up to 20 mm/s each, or three at up to 14 mm/s each. exact real arithmetic with IEEE infinities and NaN (floating-point rounding not modelled)"
  },
  {
   "property": "C102",
   "status": "proved",
   "theorems": [
    "Moovr.Props.main_loop_deadline",
    "Moovr.Props.main_loop_deadline_violated",
    "Moovr.Props.main_loop_keeps_going"
   ],
   "note": "the deadline is part of the property; main_loop_deadline_violated shows that it cannot be as long as 477 ticks; timer expiries are exact and the interrupt handler takes no time"
  },
  {
   "property": "C103",
   "status": "proved",
   "theorems": [
    "Moovr.Props.pins_show_commands",
    "Moovr.Props.pins_count_steps"
   ],
   "note": "the deadline and the absence of overflow (C101) are part of the property; time as C102"
  },
  {
   "property": "C104",
   "status": "partial",
   "theorems": [
    "Moovr.Props.pins_follow_program_partial"
   ],
   "note": "programs slow enough for the step buffer only (the full property fails with C101: two axes at full speed lose steps); time as C102; exact real arithmetic with IEEE infinities and NaN (floating-point rounding not modelled)"
  },
  {
   "property": "C105",
   "status": "proved",
   "theorems": [
    "Moovr.Props.plotter_prints",
    "Moovr.Props.plotter_waits"
   ],
   "note": "Pins and lines of each input are given as tables beside the theorem; the greeting names cnc3axis (as in the code)."
  },
  {
   "property": "C106",
   "status": "partial",
   "theorems": [
    "Moovr.Props.load_measured_partial",
    "Moovr.Props.load_measured_violated"
   ],
   "note": "Holds for every rounding of the quotient if no interval has 2^32 passes or more; for such intervals the counter wraps (witness). mcuLoad is not used by main.cpp at the pinned commit."
  },
  {
   "property": "C107",
   "status": "partial",
   "theorems": [
    "Moovr.Props.emergency_handled_partial",
    "Moovr.Props.buttons_ignored",
    "Moovr.Props.homed_ignores",
    "Moovr.Props.emergency_stop_violated"
   ],
   "note": "every press is handled (event queue not overflowed), but no press has an effect: proved for every state of every run; after homing the events of the limit switches have none either"
  },
  {
   "property": "C108",
   "status": "proved",
   "theorems": [
    "Moovr.Props.straight_motions_spaced",
    "Moovr.Props.straight_motions_pulses_single"
   ],
   "note": "motions from standstill to standstill, as C96 and C97 (no stop() or override changes, binary32 rounding as C93, speeds as C96); not for queues that run on without a pause (C98)"
  },
  {
   "property": "C109",
   "status": "proved",
   "theorems": [
    "Moovr.Props.reading_double",
    "Moovr.Props.tenths_recognised",
    "Moovr.Props.sign_kept"
   ],
   "note": "IEEE 754 binary64, round to nearest even, correctly rounding strtod"
  },
  {
   "property": "C110",
   "status": "proved",
   "theorems": [
    "Moovr.Props.position_double",
    "Moovr.Props.absolute_double",
    "Moovr.Props.place_is_position",
    "Moovr.Props.increments_double"
   ],
   "note": "IEEE 754 binary64; the origins of the work coordinates are zero, as they always are (no command changes them)"
  },
  {
   "property": "C111",
   "status": "partial",
   "theorems": [
    "Moovr.Props.full_circle_partial",
    "Moovr.Props.next_same",
    "Moovr.Props.full_circle_violated"
   ],
   "note": "holds if the two positions are the same doubles; violated after increments that cancel only in exact arithmetic (for every atan2 with an error of at most 2^-51)"
  },
  {
   "property": "C112",
   "status": "proved",
   "theorems": [
    "Moovr.Props.vout_forward",
    "Moovr.Props.vout_reverse",
    "Moovr.Props.feasible_iff"
   ],
   "note": "exact real arithmetic with IEEE infinities and NaN (floating-point rounding not modelled); the function is not called by the firmware"
  },
  {
   "property": "C113",
   "status": "proved",
   "theorems": [
    "Moovr.Props.junction_greatest",
    "Moovr.Props.junction_least",
    "Moovr.Props.junctions_fit"
   ],
   "note": "exact real arithmetic with IEEE infinities and NaN (floating-point rounding not modelled); dead code: the firmware returns 0 before it; the re-planning of the two motions in optimizePair is left out (C34-C36 are about it)"
  },
  {
   "property": "C114",
   "status": "proved",
   "theorems": [
    "Moovr.Props.calc_speed",
    "Moovr.Props.position_from_distance"
   ],
   "note": "exact real arithmetic with IEEE infinities and NaN (floating-point rounding not modelled); the functions are not called by the firmware"
  },
  {
   "property": "C115",
   "status": "partial",
   "theorems": [
    "Moovr.Props.homing_first_single",
    "Moovr.Props.homing_move_single_partial"
   ],
   "note": "the first move for every schedule; the later ones for orderly schedules (see C77/C78; by C121 those whose stops come while cruising are orderly) and within 300 mm of the origin; covers the time until homing gives its next command, the way the axis brakes after the switch changes is C119"
  },
  {
   "property": "C116",
   "status": "partial",
   "theorems": [
    "Moovr.Props.send_race_violated",
    "Moovr.Props.send_race_partial",
    "Moovr.Props.send_patient"
   ],
   "note": "violated by the code when the interrupt fires inside sendMessage (a byte of an earlier message is overwritten and a foreign byte is sent); proved with the interrupt masked, and without masking for programs that wait until everything has been sent; the interrupt handler is commented out in the shipped main program"
  },
  {
   "property": "C117",
   "status": "proved",
   "theorems": [
    "Moovr.Props.stop_cruise_single",
    "Moovr.Props.stop_place_single"
   ],
   "note": "any contraction policy for a*b+c; the motions are those of C96 (cnc3axis machine, straight, at least 0.1 mm/s); stop() at least 0.63 s after the start and at least 0.7 s (at the speed bound V) before the end, i.e. while the machine cruises; a stop during acceleration is not covered (there the code jumps, see C68)"
  },
  {
   "property": "C118",
   "status": "proved",
   "theorems": [
    "Moovr.Props.resume_cruise_single"
   ],
   "note": "any contraction policy for a*b+c; the motions are those of C96 (cnc3axis machine, straight, at least 0.1 mm/s); stop() at least 0.63 s after the start and at least 1.7 s (at the speed bound V) before the end, so that the remaining motion reaches its speed again; start() once the controller has stopped, with an unchanged override; shorter remainders and repeated stops are not covered"
  },
  {
   "property": "C119",
   "status": "partial",
   "theorems": [
    "Moovr.Props.homing_first_stop_single",
    "Moovr.Props.homing_stop_single_partial"
   ],
   "note": "the first move for every schedule; the later ones for orderly schedules (see C77/C78; by C121 those whose stops come while cruising are orderly) and within 300 mm of the origin; the stop must come while the axis cruises (0.62 s of travel after the start and 1.3 s before the end of the move), because a stop during acceleration makes the code jump (C68)"
  },
  {
   "property": "C120",
   "status": "partial",
   "theorems": [
    "Moovr.Props.homing_one_step_single_partial",
    "Moovr.Props.homing_one_axis_single_partial"
   ],
   "note": "orderly schedules (see C77/C78; by C121 those whose stops come while cruising are orderly); the stepped axis is the one of the move ordered last for every machine and configuration"
  },
  {
   "property": "C121",
   "status": "proved",
   "theorems": [
    "Moovr.Props.homing_timely",
    "Moovr.Props.homing_timely_orders",
    "Moovr.Props.homing_timely_waits",
    "Moovr.Props.homing_timely_steps"
   ],
   "note": "the shipped 3-axis configuration; the conditions (stops while cruising, moves within 300 mm of the origin) are part of the claim, see the findings for what the code does otherwise; any contraction policy for a*b+c"
  },
  {
   "property": "C122",
   "status": "proved",
   "theorems": [
    "Moovr.Props.homing_place_single"
   ],
   "note": "the shipped 3-axis configuration, under the conditions of C121; the place is relative to where the axis is when homing handles the event, the travel while the event waits in the queue and while the input is debounced is not included"
  },
  {
   "property": "C123",
   "status": "partial",
   "theorems": [
    "Moovr.Props.program_adapts_partial",
    "Moovr.Props.ExecuteExample.adapts_violated"
   ],
   "note": "start() only while the motion in progress does not speed up (otherwise its position jumps: adapts_violated) and is not at the very end of its path; exact real arithmetic with IEEE infinities and NaN (floating-point rounding not modelled)"
  },
  {
   "property": "C124",
   "status": "proved",
   "theorems": [
    "Moovr.Props.step_counter_fits",
    "Moovr.Props.bounded_kit",
    "Moovr.Props.bounded_kit32",
    "Moovr.Props.main_counter_fits",
    "Moovr.Props.program_counter_fits",
    "Moovr.Props.backward_unguarded"
   ],
   "note": "the upper bound assumes that an undefined conversion to int32_t yields some int32_t; programs: exact real arithmetic with IEEE infinities and NaN (floating-point rounding not modelled)"
  },
  {
   "property": "C125",
   "status": "partial",
   "theorems": [
    "Moovr.Props.number_text",
    "Moovr.Props.motion_text_fits",
    "Moovr.Props.motion_text_partial",
    "Moovr.Props.motion_text_angle_partial",
    "Moovr.Props.TextExample.motion_text_violated",
    "Moovr.Props.request_text"
   ],
   "note": "false in the code for arcs: the member deltaAngle is never set, so the end angle printed is the start angle; length and memory proved for all motions, the contents for all motions but the end angle of arcs; the signs of -0 and NaN are not modelled"
  },
  {
   "property": "C126",
   "status": "partial",
   "theorems": [
    "Moovr.Props.link_lines_partial",
    "Moovr.Props.link_complete",
    "Moovr.Props.link_never_stuck",
    "Moovr.Props.link_recovers",
    "Moovr.Props.link_program_partial",
    "Moovr.Props.LinkExample.link_program_violated"
   ],
   "note": "proved for hosts that never have more than 256 bytes outstanding; violated otherwise: there is no flow control, bytes that find no room are dropped silently, and what is left of a line is read together with the next line as another block; calls atomic (interrupts inside getMessage: C11); number values exact; main.cpp does not use the link yet at the pinned commit"
  },
  {
   "property": "C127",
   "status": "proved",
   "theorems": [
    "Moovr.Props.flush_makes_idle",
    "Moovr.Props.flush_then_program"
   ],
   "note": "the following program is subject to the conditions of C74 (motions not too short, within the range of the position counter); program_abandoned_partial composes this with a stop (C89) and says where the axes stand; exact real arithmetic with IEEE infinities and NaN (floating-point rounding not modelled)"
  },
  {
   "property": "C128",
   "status": "proved",
   "theorems": [
    "Moovr.Props.lockstep_needs_no_masking",
    "Moovr.Props.lockstep_violated"
   ],
   "note": "lockstep_violated shows that the waiting is needed: a host that goes on sending loses a byte although the program asks before each call; the other interrupts (transmitter, timer) share nothing with the receive buffer and are left out"
  },
  {
   "property": "C129",
   "status": "proved",
   "theorems": [
    "Moovr.Props.flush_makes_idle_single",
    "Moovr.Props.flush_then_queue_single",
    "Moovr.Props.line_abandoned_single"
   ],
   "note": "composition with C98 and C117, with their conditions; the new motions begin within one step of the counted position"
  },
  {
   "property": "C130",
   "status": "proved",
   "theorems": [
    "Moovr.Props.events_have_room",
    "Moovr.Props.events_not_lost",
    "Moovr.Props.events_not_lost_single",
    "Moovr.Props.events_have_room_violated"
   ],
   "note": "schedule condition stated as such: 15 iterations without sampling between two samplings, and an orderly schedule; events_have_room_violated shows a run with one iteration per sampling that loses events"
  },
  {
   "property": "C131",
   "status": "partial",
   "theorems": [
    "Moovr.Props.homing_notices_closing",
    "Moovr.Props.homing_notices_closing_single",
    "Moovr.Props.homing_waits_open",
    "Moovr.Props.homing_waits_open_single",
    "Moovr.Props.homing_notices_opening_partial",
    "Moovr.Props.homing_notices_opening_violated",
    "Moovr.Props.homing_backs_off_in_vain"
   ],
   "note": "closing: proved in full, with the condition that no event was lost (C130) stated as such; opening: proved if the switch was seen closed during the move, and homing_notices_opening_violated shows an orderly run without lost events in which homing waits in vain"
  },
  {
   "property": "C132",
   "status": "proved",
   "theorems": [
    "Moovr.Props.straight_speed_single"
   ],
   "note": "straight motions of the 3-axis machine, within the bounds of C96 (Straight32, Asked)"
  },
  {
   "property": "C133",
   "status": "proved",
   "theorems": [
    "Moovr.Props.homing_overrun_single",
    "Moovr.Props.homing_overrun_single_reachable"
   ],
   "note": "conditions on the schedule stated as such (SampledRarely, Timely, as in C130 and C121); the second theorem: a run meets them"
  },
  {
   "property": "C134",
   "status": "proved",
   "theorems": [
    "Moovr.Props.homing_zero_single"
   ],
   "note": "conditions on the schedule stated as such (SampledRarely, Timely, as in C130 and C121); that the switch was seen closed during the move is needed (homing_notices_opening_violated)"
  },
  {
   "property": "C135",
   "status": "proved",
   "theorems": [
    "Moovr.Props.calculations_cover",
    "Moovr.Props.homing_overrun_calcs",
    "Moovr.Props.homing_zero_calcs"
   ],
   "note": "the first theorem for any target and either arithmetic; the others under the conditions on the schedule of C133 and C134 (SampledRarely, Timely)"
  }
 ]
}