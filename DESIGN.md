# Moovr — formal model and proofs: design

Source: `/repo` (Strooom/Moovr, pinned commit), read as text only. Model and proofs: Lean 4 in
`/verif/lean` (`lake build`). Properties: `properties.jsonl`. Status per property: `MANIFEST.json`.
Seeded-bug log: `seeded/LOG.jsonl`.

## 1. Layout

* `lean/Verif/Model/*.lean` — executable model of the code, function by function. Every definition cites
  file and lines in `/repo`, and says where it simplifies.
* `lean/Verif/Spec/*.lean` — small independent specifications (lists, counts, waveforms); they never call
  model functions.
* `lean/Verif/Lemmas/*.lean` — helper lemmas.
* `lean/Verif/Props/*.lean` — the property theorems only, one file per area, each followed by an `example`
  showing a concrete case that meets its hypotheses, and (where the code violates the property) a theorem
  `…_violated` proving the negation with a concrete reachable witness.
  `SpeedSingle`, `HomingOverrun`, `CalcTicks` and `HomingWitness` reuse private lemmas of other property files (`open private`, from Batteries, which Mathlib
  brings along); this makes names visible and adds no assumption.
* `lean/Verif/Tests/*.lean` — unit tests of the project, transcribed and checked on the model (section 5). No claim rests on them.

## 2. Trusted base

* Lean 4.33.0's kernel. Axioms of the theorems named in `MANIFEST.json` (`#print axioms`): each depends on a subset of
  `propext`, `Classical.choice`, `Quot.sound`; a few on none. No own axioms, no `sorry`, no `native_decide`/`bv_decide`.
* The reading of the C++ text: the model is hand-written; nothing ties it to the compiled code except the
  citations. C++ integer semantics as modelled: `uint32_t` wrap-around is explicit wherever a value can wrap
  (`BitVec 32`, or `Verif.Model.U32`); indices which are provably in range use `Nat`.
* Undefined behaviour (access outside an array, uninitialised cells) is a distinct outcome (`none`, `Except Fault`), never
  silently totalised. The `int32_t` machine position is an unbounded integer in the
  model; C124 says when it stays within its range.
* Non-termination: loops of the code that need not terminate (`stepBuffer` constructor, the calculation of the next output) are
  modelled with a bound and return `none` when it is reached; C16 and C24 say when this happens.
* Floating point. Four treatments:
  1. *Motion control* (`Model/MotionCtrl`, `Model/MainLoop`) is generic over a `MotionKit`: types of times, profiles and positions with
     operations about which **nothing** is assumed. Theorems about it (C22–C28, C63) hold for IEEE floats in
     particular, NaN and infinities included.
  2. *Kinematics* (speed profiles, planning, trajectories, step decisions) is over `Num` (`Model/Num`): the real numbers
     plus `+inf`, `-inf`, `NaN` with the IEEE rules for comparison and arithmetic (division by zero, `inf - inf`, …), but **exact**:
     no rounding, no overflow to infinity, one zero. `sqrtf`, `fabs`, `roundf` (half away from zero), `atan2f`, `sinf`, `cosf` are the exact functions.
  3. *G-code* numbers are rationals, `strtod` is exact on decimal literals; the conversion to `Num` is the inclusion.
     Square roots (arc centres) are exact reals. `Model/GCodeDouble` repeats the reading of numbers, the calculation of positions and
     of arc angles with every operation rounded to double precision (C109–C111; `atan2` is a parameter).
  4. *Single precision* (C93–C100): `Model/Float32` defines rounding to nearest even in binary32 as a function on the reals (subnormals
     included; overflow and signed zeros not); `Model/Single` repeats clock, profiles, planner, trajectories and step decision with every
     operation rounded, as a second instance (`Machine.kit32`) of the generic controller. Whether the compiler contracts `a * b + c` into
     one operation, and which `cosf` and `sinf` the library has, is a parameter (`Fpu`): the clock, the trajectory and the step decision
     are proved for any choice of contraction and any `cosf`/`sinf` within 2^-23 of the exact functions for arguments up to 16.
     The requests' doubles are taken to be exact and are rounded once.
* Hardware: GPIO ports are arbitrary 32-bit values; the periodic interrupt timer is modelled from the text in
  `lib/outputs_stepper_motor/stepbuffer.md` (a reload value takes effect at the next expiry; period = value+1
  ticks); UART as one byte per interrupt. In `Drive` (C102–C104) the output timer expires exactly when its period is over and the
  interrupt handler takes no time; the durations of everything in the main loop are arbitrary.
* Not modelled: Arduino runtime, serial printing, `intervalTimer` (external library; its expiry is an arbitrary input),
  logging, `speedProfilePassed::toString`, the empty `point::toString`, `maincontroller.cpp` (entirely commented out),
  the CSV export helpers, hardware initialisation.
  In the G-code interpreter: `G10` has no effect in the code (its `L` word is never found) and is modelled as such.
* Only the cnc3axis configuration (3 axes) is used where a proof depends on constants; the G-code interpreter is modelled with 3 axes.

## 3. Per property: what is modelled, how it is proved

| id | model | proof |
|----|-------|-------|
| C01–C03 | `EventBuffer`: ring of 16 cells, head/level/levelMax/lastError | refinement to a list queue with capacity, induction over arbitrary op lists; error and high-water specs are functions of the op history |
| C04–C06 | `Debounce`: counter 0..4, current/previous | invariant relating counter to the maximal suffix excess of samples; induction over sample lists |
| C07–C10 | `HostInterface`: rx/tx rings of 256 bytes, line counter | refinement to byte list |
| C11 | `HostRace`: `getMessage` split into load/store micro steps with interrupts in between | all schedules where the interrupt is masked; witness schedule otherwise |
| C12–C16 | `StepBuffer`: 256 cells (time, signals), two-slot shift, uninitialised cells explicit; `PinOutput`: timer pipeline | refinement to write/read histories |
| C17 | `FillLoop`: fill loop interleaved with the output interrupt | invariant over all interleavings |
| C18–C21 | `StepSignals`: three 32-bit stage words | bit-level lemmas by extensionality; induction over tick sequences; the exact waveform of every command sequence |
| C22–C27, C66 | `MotionCtrl` (with `SampleTime`, `MotionBuffer`), generic in the arithmetic | refinement to `Spec/MotionRun` (list of waiting motions, three states, reported events) over all histories of calls; termination without fuel |
| C28–C30 | step decisions (`MotionItem`) over `Num` | induction over ticks, hysteresis bound `1/2 + h` |
| C31–C33 | `SpeedProfile` over `Num` | real analysis (`HasDerivAt`), after showing that finite inputs give finite results |
| C34–C38, C67, C68 | `MotionItem.optimize`, `s`, `v`, `a` over `Num` | `Spec/Plan` (continuous piecewise profile); optimality by comparison with any admissible profile |
| C64, C74 | the whole motion controller with the real arithmetic: queue, planner, clock, step decisions (`MotionCtrl` over `Machine.kit`) | `Spec/Execute` says what executing a list of requests means (a curve per request from rest to rest within all limits, chained in time); invariant over ticks and calls that the machine position follows it (`Lemmas/Execute*`) |
| C75, C76 | as C64 | velocity of each axis is Lipschitz with the acceleration limits (`Lemmas/ExecuteVelocity`), so successive steps are apart (`Lemmas/ExecuteSteps`); with the waveform theorem the pulses add up |
| C39–C41, C69 | `limit`, trajectories, positions over `Num` | real arithmetic, trigonometry |
| C42–C44 | `GCodeBlock` tokenizer over character lists, with array bounds | structural induction |
| C45–C57, C65, C70–C72 | `GCode.parseBlock` over ℚ, with array bounds | symbolic execution lemmas, invariants over all programs (`GCodeRun`), arc geometry over ℝ |
| C58–C61 | `Homing` state machine, environment arbitrary | invariant on the trace of actions, induction over calls |
| C62 | `Inputs` bit shuffling over `BitVec 32` | bit extensionality |
| C63, C73 | `MainLoop`: all components connected as in main.cpp | induction over loop iterations; the homing theorems carry over |
| C77, C78 | as C63 | invariant relating the stage of homing to state, queue and pending reports of the motion controller (`Lemmas/HomingMotion`, `Lemmas/HomingWaits`); orderly schedules are defined in `Model/MainLoop` |
| C79, C80 | `event.cpp`, `gcodeparseerror.cpp`, `gcodeparseresulttype.cpp`, `homingstate.cpp`, `motiontype.cpp`, `motionstate.cpp`, `motionstrategy.cpp`, `rotationdirection.cpp`, `speedprofileorder.cpp`, `mainstate.cpp`, `probingstate.cpp`, `motioncalculatedirection.cpp`, `hostinterfaceerror.cpp` (`toString`), `version.cpp` | lists of all values without duplicate names; the log: invariant of the main loop on the events offered to the queue; decimal representation by strong induction |
| C81, C82 | `lib_target/cnc3axis/outputs/steppermotor.cpp` as sequences of register writes | invariant over the history of calls / of writes |
| C83 | G-code interpreter, motion queue, planner and step generation together (the firmware at this commit does not yet connect them: `main.cpp` appends only homing motions; the theorem connects the two interfaces) | positions of the interpreter are the ends of the paths (`gcode_executable`), hence C74 applies; limits of the cnc3axis machine discharge its conditions for straight programs |
| C84, C85 | motion queue, planner over infinities and NaN, step decision | bound on the durations of proper motions (C74); invariants over the number of ticks for motions of length zero (`Hung`, `Dwells`) |
| C86, C87 | whole main program over the real planner (`Model/HomingTarget`: how homing's request is built) | a homing move at standstill is a program of one motion (C74); iterations without command are calculations; an axis that takes no part makes no step (`Single`) |
| C88 | as C63 | induction over iterations, the controller's calls collected in a history |
| C89, C90 | motion queue, planner, profiles, step decision | the stop plan as a time law (`Brake`), invariant `Braking` over ticks; the resumed motion as one law glued from four parts |
| C91 | motion queue, planner, profiles, step decision | invariant `Stage` (parked, moving, braking) over all calls; a measure of the time left for the end |
| C92 | `StepRace`: the filling loop split into single accesses, interrupts in between | simulation by the atomic `FillLoop` of C17 for all schedules; witness without the interrupt mask |
| C93, C94 | `Float32`, `Single`: clock and step decision with rounding | bounds on the error of one rounding (relative, and absolute below 2^-126), monotonicity of rounding; induction over ticks |
| C95 | `Single`: planning and evaluating a speed profile with rounding | per part of a ramp: difference to a cubic without rounding, slope of that cubic (`Ramp32`); sizes of the computed durations (`Phase32`); joints of ramps and cruise (`Trip32`); relative errors of the planned speed and lengths (`Moderate32`, `Drive32`) |
| C96 | `Single`: append, start, calculate; whole run of one straight motion | limits and plan of the request (`Limit32`, `Run32`), sequence of ticks of a run (`TickSeq`), error budget of the line (`Line32`, `Course32`) and of the clock (`Clock32`), then C94 and C95 |
| C97 | `Single`: straight motions one after another | induction over the motions with C96 |
| C98 | `Single`: queues of lines and arcs | invariant over the ticks (`Props/SingleQueue`: which cells are planned, clock offset, distance of each axis), induction over the history, decreasing number of remaining ticks |
| C99 | interpreter over ℚ and `Single` | the motions of an execution form a connected queue (induction over the execution), then C98 |
| C100 | `Single`: trajectories and limits of arcs | error budget of angle, `cosf`/`sinf`, radius and centre (`Arc32`); limits axis by axis (`ArcCourse32`) |
| C101 | `FillLoop` fed with the outputs of `MotionCtrl` on `cnc3axis` | counting the changes of the lines in a window from the spacing of steps (`Density`); converse by an explicit schedule (`Overflow`) and a traverse whose steps are exactly 10 ticks apart on two axes (`Crowd`, `Diagonal`) |
| C102–C104 | `Drive`: controller, filling loop, step buffer, timer, interrupt and pins with time in ticks; the duration of everything is left open | simulation by `FillLoop` (C17), `PinOutput` (C14) and `MotionCtrl` (C24); invariant on what was in the buffer at the last successful check (`Ahead`); cumulated times of the updates against the waveform (`Shows`); for C104 the trace of C75 and the room of C101 |
| C105 | `Plotter`: the program of the plotter, whose motion control is commented out | induction over the samples, input by input, then C04 and C62 |
| C106 | `McuLoad`, the quotient arbitrary in a linear order | invariant over the history of calls |
| C107 | `Board` (C63), every motion arithmetic | invariant: homing never waits for the event of a button; then one iteration |
| C108 | `Single`: pulses of straight motions | beginning of a motion from rest: early samples do not leave the start (`Begin32.early`), and an axis that is still within 181 nm of the start is slower than the hysteresis per tick (`Begin32.slow`, from the relation v² ≤ 2as of the profile in `Start32`); then C94, C96, C76 |
| C109 | `GCodeDouble`: reading words in double precision | ten times a tenth: the error of the product is a multiple of a quarter of its last place and at most half of it, and integers are even (`Float64.ten_tenths`); other numbers of at most 14 digits are too far from an integer |
| C110, C111 | `GCodeDouble`: positions and arc angles in double precision | induction over the moves; evaluation of the roundings of 0.1 + 0.2 - 0.3 |
| C112–C114, C67 | `Junction`: code that the firmware contains but does not execute (`vOut`, the rest of `vJunction`, `calcSpeed`, `positionFromDistance`) | `Spec/Ride`: any forward motion with bounded accelerations; a lower bound of its speed by a line gives a lower bound of the distance (`Ride.gain`, `Ride.loss`), and a two-phase motion attains every value in between (`ride_exists`); then induction over the pair optimizations |
| C115 | whole main program over the single-precision motion controller (`Machine.target32`) | as C86, with the straight motion of C96 (from 0.1 mm/s on) in place of the exact one; the position counter is the sum of the steps |
| C116 | `SendRace`: `sendMessage` split into its accesses with transmitter interrupts in between | as C11: without interruption the accesses complete to the atomic call (`complete_mainStep`), so an execution is a history of C09; witness schedule otherwise |
| C117 | `Single`: append, start, calculate, `stop`, calculate; stop while cruising | what C96 knows in the middle of a motion (`straight_motion_state`), the replanned profile (`Halt32`), the distance of the braking ramp (`Brake32`), the controller while stopping (`Stopping32`), then C94 |
| C118 | `Single`: append, start, calculate, `stop`, calculate until stopped, `start`, calculate | the state left by C117 (`stop_state`), the profile replanned from rest (`Regain32`), its distance (`Resume32`), the controller from there on (`Stopping32`, `Sampled32`), then C94 |
| C119 | whole main program over the single-precision motion controller | as C115 up to the event upon which homing calls `stop`; the time of the stop is bounded from the position (`stop_place_single`), then C117 |
| C120 | whole main program over the single-precision motion controller | each place of the queue holds the trajectory of its request, for any arithmetic (`Owned`); where the schedule is orderly the queue holds the move ordered last (C77), in which the float quotient 0/L of the other axes is 0, so they take no part |
| C121 | whole main program over the single-precision motion controller | invariant of the run: the controller stands still, or makes one motion whose planned stop is at infinity, or brakes during one motion whose planned end is at infinity (`Smooth`); while homing waits for a switch, the controller has been calculating the move ordered last since its order; so a stop at a place of the cruise meets a motion that is still there (C117), and each calculation reports at most one standstill |
| C122 | whole main program over the single-precision motion controller | the braking of the slow release move (C119), composed with the offset move (C115, which stops only at its end) |
| C123 | motion queue, planner, profiles, step decision | the old time law until the call, glued to the plan made from the place and speed at that time (`Runs.replans`); then the invariant of C74 |
| C124 | motion controller, step decision, main loop | upper bound by induction over ticks and calls (generic over the arithmetic); programs by the tick-by-tick trace of C75 (`Trace`) and the range of all commanded positions |
| C125 | `toString` of motions, `%f` | a chain of `sprintf`s on a running offset is one `sprintf` of the concatenation (`Prints.inTurn`); sizes by counting; the text against a separate description of the request |
| C126 | host link and reading of lines together | everything arrived = messages returned ++ bytes stored, each message one line; a text splits into lines in one way only; then C44 |
| C127 | flushing and the next program | the only thing of a history that survives stop and flush is the width of the sample time, the position and the overrides: no call but `initialize()` changes the width; then C74 |
| C128 | `HostRace` (single memory accesses) with a waiting host | the host sends only when no line is stored, so the program is outside `getMessage()`; then C126 |
| C129 | as C127 with `Machine.kit32` | as C127; then C98 and C117 |
| C130 | `Board.run` | at most 7 reports that are not of inputs wait: 3 while running, 4 while stopping, 2 behind a `motionStopped`; the events of inputs are among the first 16 − (iterations since sampling) |
| C131 | `Board.run` | while homing waits for a level of its switch and the switch has it, the event is pending (entry to `closing` only with the switch open); the event then moves one place forward in each iteration |
| C132 | single-precision motion controller | the computed position follows the rounded profile (`Law.rate`), the position of the motor follows the computed one within 0.56 step (C96); the clock is off by a relative 4·2⁻²⁴, which over the whole motion is 0.02 step |
| C133 | whole main program over the single-precision motion controller | C131 for the iteration of the stop, before which homing gives no command (`Board.first_stop`); C132 for the way until then; C119 for the braking |
| C134 | whole main program over the single-precision motion controller | C131 (opening) for the iteration of the stop, C132 for the way until then, C122 for the stop and the offset move |
| C135 | whole main program over any motion controller; the overrun over the single-precision one | invariant of the histories (C88): only `configure` changes the limit; C133, C134 |

The specifications quantify over *everything* the environment can do (calls, schedules, samples, ports, programs). Hypotheses appear in
`_partial` theorems (see below), as sanity conditions on machine constants (positive limits and step sizes, each met by the shipped
constants), as ranges of the numbers in single precision, and as conditions on the schedule of the main loop (`Orderly`, `Timely`,
`SampledRarely`), which the note of the claim then names.

Not every combination of hypotheses is exhibited by a run. For C77, C130 and C131 the examples are runs of the whole program over a small
motion arithmetic that counts ticks (`loopKit`), computed by the kernel. For the theorems about the whole program in single precision
(C119–C122, C133–C135) the kernel cannot compute a run, because the `float` operations are defined by rounding of real numbers; their
examples instantiate the move and the numbers, but assume `Timely`, `SampledRarely` and the state of homing. For C133 a run that meets all
hypotheses together is proved to exist (`homing_overrun_single_reachable`, Props/HomingWitness.lean): calculations until Z is about 10 mm
on its way, then five samples of its closed switch. In it `Timely` holds with a stop that is really ordered. For the condition of C134,
that the switch opens again during the second move, no run is exhibited.

## 4. Disagreements between code and property

Each is proved with a concrete witness (theorem `…_violated`) next to a `_partial` theorem that says what does hold.

| id | what the code does | theorem |
|----|--------------------|---------|
| C10 | 256 received bytes without a line feed fill the buffer; nothing can be read or received any more | `host_progress_violated` |
| C11 | `getMessage` updates the level with interrupts enabled; a reception in between is lost | `host_race_violated` |
| C116 | `sendMessage` reads head and level, and increments the level, with interrupts enabled; a transmission in between makes it overwrite a byte of an earlier message and send a byte of none | `send_race_violated` |
| C16 | `stepBuffer(…)` divides by zero or never returns for some arguments (exact condition: `step_buffer_init_returns_iff`) | `step_buffer_init_violated` |
| C17 | in the shipped configuration the fill condition can hold with a full buffer, so dense outputs are dropped | `fill_loop_violated` |
| C19 | steps on consecutive ticks merge into one pulse | `step_count_violated` |
| C20 | the guard is `axis <= nmbrAxis`: axis number `nmbrAxis` drives other pins | `step_axis_guard_violated` |
| C25–C27 | `stop()` on an empty queue sets the state to stopping; the next calculation pops the empty queue, its level becomes 2^32−1 | `motion_stop_empty_violated` |
| C37, C38 | re-planning writes `left.vStart` before evaluating `s(tNow)`: in the acceleration phase the path position jumps; a stop there may never come to rest | `replan_violated`, `stop_violated` |
| C68 | after a stop in the final deceleration the remaining duration is 0/0 = NaN: the motion never completes | `restart_violated` |
| C43, C44 | lines with ≥ 256 significant characters are written beyond the end of the buffer | `reading_overrun_violated`, `round_trip_violated` |
| C44 | the number of a G or M word is converted to `uint32_t` without a check of its range: undefined for `G-1`, `M-0.1`, `G429496729.6` | `code_conversion_violated` |
| C45 | two of M48/M49, G59.1–G59.3 or T in one block are not reported as collision | `collisions_violated` |
| C46 | after G4 the remaining settings of the block are skipped; a motion word beside G53 is ignored | `modal_settings_violated` |
| C47, C55 | a dwell with axis words moves the interpreter's position; G53 moves it without a reported motion | `motions_connect_violated`, `dwell_violated` |
| C48 | in incremental mode axes without a word repeat their old value; a rejected G1 leaves changed axis values behind | `unmentioned_axes_violated` |
| C49 | switching units inside a program reinterprets axes without a word: `G0 X1`, `G20 G0 Y1` moves X to 25.4 | `unit_switch_violated` |
| C50 | G2/G3, G53 and motions by axis words alone are accepted with feed rate 0 | `feed_violated` |
| C51 | G18 selects Y,Z and G19 selects Z,X: interchanged | `arc_plane_violated` |
| C52 | (note) omitted I, J, K keep the value of an earlier block | — |
| C54 | M7 is flood and M8 mist; the standard and the block's own collision groups have it the other way round | `coolant_violated` |
| C56 | InvalidFeedrate leaves the motion type set; a G53 motion is not reported | `outcome_violated` |
| C57 | `X1 T1` yields a motion on every call, forever; a colliding block is never consumed; `G4 P1` leaves P behind | `loop_violated` |
| C66 | the 32-bit sample index wraps: the clock of a motion sampled 2^32 times goes back to 0 | `motion_clock_wrap_violated` |
| C70 | R or I/J/K beside G0, G53 or G4 reads arrays out of bounds | `bounds_violated` |
| C71 | an I/J/K arc whose ends are not equidistant from the centre is executed and ends elsewhere | `arc_leads_violated` |
| C77 | if a homing move ends by itself just before its switch event is handled, `stop()` meets an empty queue and causes a second `motionStopped`, which is taken for the stop of the next move: a move is then ordered while the machine is still moving | `homing_orders_violated` |
| C78 | a homing move that ends without its switch event leaves homing waiting forever, without error | `homing_waits_violated`, `homing_stuck` |
| C79 | `toString` calls `motionStrategy::maximizeSpeed` "minimizeSpeed"; two events, two parse errors and three parse results are "unknown" | `names_violated` |
| C80 | version components above 999 are cut off (14 characters) | `version_text_violated` |
| C82 | `stepperMotorOutputs::initialize` makes the enable pins outputs before it raises them: after a reset all motors are enabled for a moment | `motors_disabled_violated` |
| C84 | a motion of length zero divides 0 by 0: with the unlimited speed of a traverse its duration is NaN, it never ends (`G0` to the present position); meanwhile axes below the value to which NaN is converted (0 on ARM) move there | `motion_ends_violated`, `traverse_nowhere` |
| C85 | `motionSpeedProfile::setDuration` leaves the stop time of the earlier user of the place in the queue; in a place never used it is 0 and the controller stops at the first tick with the dwell still queued | `pause_lasts_violated` |
| C85 | a dwell has a trajectory of length zero: its positions are NaN, axes below the value to which NaN is converted make a step at each tick of the dwell | `pause_still_violated` |
| C90 | a stop that ends exactly at the end of the path leaves 0 mm for a cruise at speed 0, whose duration is 0/0: the distance travelled is NaN one tick later; after `start()` the duration of the motion is NaN, it never ends, and NaN positions are converted to integers (undefined behaviour) at every tick | `resume_at_end_never_ends`, `ExecuteExample.resume_violated` |
| C93 | `sampleTime::next` computes the time from the sample index as float: from sample 2^24 on (280 s of one motion at 60 kHz) the time stands still for a sample | `clock_advances_violated` |
| C101 | two axes at full speed (30 mm/s each) change the lines four times in 10 ticks; then 254 outputs last about 635 ticks. The buffer (256 entries) asks for more as long as its total is below 1500 ticks, of which 750 are those of two priming entries that were overwritten: it still asks when full, an output that was calculated is lost, and with it steps | `program_buffer_room_violated`, `fill_loop_sharp` |
| C105 | (note) the greeting of the plotter's program is "Moovr T0.1 - cnc3axis" | — |
| C106 | the counter of passes wraps after 2^32 passes within one interval: the least load is reported as infinite | `load_measured_violated` |
| C107 | `loop` hands every event to the homing controller only: the emergency stop button, the feed hold button and the probe have no effect; after homing the limit switches have none either | `emergency_stop_violated`, `buttons_ignored`, `homed_ignores` |
| C111 | the end of an arc is compared with its start without a tolerance: after `G91 Y0.1`, `Y0.2`, `Y-0.3` the position is 2^-54 mm instead of 0, and the full circle `G90 G3 X0 Y0 I5 J0` becomes an arc of less than 2^-46 rad | `full_circle_violated` |
| C123 | `start()` while a motion accelerates plans it again from a wrong place: half a second after the start of a motion of 1 mm at 1 mm/s² the position asked for jumps from 0.125 mm to 0.375 mm | `ExecuteExample.adapts_violated` |
| C125 | The text of an arc (`motion::toString`) shows the start angle as its end angle: `motionTrajectory::deltaAngle` is never assigned (`motiontrajectory.cpp:58-84`). `simplifiedMotion::toString` prints the length with the unit s. | `TextExample.motion_text_violated`, `request_text` |
| C126 | The link has no flow control: when 256 bytes are unread, further ones are dropped silently, and the rest of the cut line is later read together with the next one: X22 and Y5 are read as the block X2 Y5 | `LinkExample.link_program_violated` |
| C130 | The event queue has 16 places and an iteration empties one: when the loop is no faster than the sampling of the inputs (10 ms, e.g. held up by printing), simultaneous changes of the inputs overflow it and changes are lost | `events_have_room_violated` |
| C131 | If the limit switch opens again while the axis slows down from the approach, the event is told in `closedWaitForStop` and ignored; homing then backs off and waits for an opening that has already happened. The move ends, homing stays in `opening` for as long as the switch stays open | `homing_notices_opening_violated`, `homing_backs_off_in_vain` |

## 5. Tests of the model against the project's own unit tests

The unit tests under `/repo/test/native` say what their author expects of the code. Their assertions are transcribed as
`example`s about the model and checked by the kernel, so a misreading of the code that these tests would notice does not build:

* `Tests/Discrete`: test_eventbuffer, test_step_buffer, test_step_signals, test_sampletime, test_motion_buffer, test_gcode_block;
* `Tests/Kinematics`: test_motion_item (motion parts, `vTri`, `vOut`, trajectories, profiles, limits, optimisation), test_motion_simplifiedmotion;
* `Tests/Control`: test_motion_control, test_001 and test_002 of test_motion_gcode;
* `Tests/Parser`: test_gcode_parser (reports, errors and positions).

They are tests, not proofs; nothing in `MANIFEST.json` refers to them. Not transcribed: the tests without assertions
(test_maincontrol_homing), those that need hardware (test_hostinterface), test_003 and `optimize` of test_motion_gcode.

All agree with the model, except one: test_001 of test_motion_gcode expects 19, 10, 7, 7, 7, 7, 8, 11 ticks between the steps. The
model gives these numbers for a hysteresis of 0.1, but the code has 0.05 (lib_target/native/general/machineproperties.h:30), for
which they are 18, 11, 7, 7, 7, 7, 7, 11. Both are checked in `Tests/Control`; the test was not adapted to the present constant.
