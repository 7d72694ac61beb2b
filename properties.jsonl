{"id": "C01", "title": "Event queue is a bounded FIFO", "statement": "Whatever calls are made on an event queue, the events returned by successive popEvent() calls are exactly the events that pushEvent() accepted, in push order, each once; a push is accepted iff the event is not event::none and fewer than 16 events are pending; a popEvent() on an empty queue returns event::none and changes nothing observable except the error flag; hasEvents() is true iff some accepted event has not been popped.", "quantifier": "every finite sequence of initialize / pushEvent / popEvent / hasEvents / getLevelMax / getLastError calls, all event values", "why_tests_cant": "The ring index wraps modulo 16 and the behaviour depends on the whole call history (head position and level); tests only replay a few histories.", "anchors": ["lib/event/eventbuffer.cpp: eventBuffer::pushEvent, popEvent, hasEvents, initialize", "lib/event/eventbuffer.h: eventBuffer::length"]}
{"id": "C02", "title": "Event queue reports every overflow and underflow", "statement": "getLastError() returns event::none iff no push was rejected for lack of room and no pop was attempted on an empty queue since the previous getLastError() or initialize(); otherwise it returns eventBufferOverflow or eventBufferUnderflow according to the most recent such incident, and a second immediate call returns none.", "quantifier": "every finite call history", "why_tests_cant": "The flag depends on the last incident anywhere in an arbitrarily long history.", "anchors": ["lib/event/eventbuffer.cpp: eventBuffer::getLastError, pushEvent, popEvent"]}
{"id": "C03", "title": "Event queue high-water mark is exact", "statement": "getLevelMax() returns the largest number of simultaneously pending events reached by any push since the previous getLevelMax() or initialize() (0 if there was no accepted push), never more than 16.", "quantifier": "every finite call history", "why_tests_cant": "Maximum over an unbounded history with resets in between.", "anchors": ["lib/event/eventbuffer.cpp: eventBuffer::getLevelMax, pushEvent"]}
{"id": "C04", "title": "Debounced input follows a stable contact and ignores glitches", "statement": "Starting from a settled level, getEvent(sample) reports a change exactly when, for some run of most recent samples, the samples showing the new level outnumber those showing the old level by at least 5; in particular five identical consecutive samples always bring getState() to that value, and a disturbance in which deviating samples never outnumber the agreeing ones by 5 in any window reports nothing.", "quantifier": "every initial level and every finite sequence of samples", "why_tests_cant": "The saturating counter makes the outcome depend on all windows of an arbitrarily long noisy sample history.", "anchors": ["lib/inputs/debouncedinput.cpp: debouncedInput::initialize, getEvent, getState, isOpen, isClosed"]}
{"id": "C05", "title": "Debounced input events alternate and agree with the reported state", "statement": "Over any sample sequence the non-none events reported by one input strictly alternate between its two events, the first one being the change away from the initial level; at every moment getState() is the initial level toggled once per reported event, and isOpen()/isClosed() are complementary views of it.", "quantifier": "every initial level, every event pair, every finite sample sequence", "why_tests_cant": "Exactly-once edge reporting is a statement over all histories.", "anchors": ["lib/inputs/debouncedinput.cpp: debouncedInput::getEvent, getState, isOpen, isClosed"]}
{"id": "C06", "title": "Two reported changes of one input are at least five samples apart", "statement": "Between two events reported by one debounced input at least four further samples are consumed without event, so with the 10 ms sampling used by the firmware one input can never produce more than one event per 50 ms, whatever the contact does.", "quantifier": "every sample sequence", "why_tests_cant": "Rate bound over all input histories.", "anchors": ["lib/inputs/debouncedinput.cpp: debouncedInput::getEvent", "src/cnc3axis/main.cpp: loop"]}
{"id": "C07", "title": "Received host bytes come out unchanged and in order", "statement": "The concatenation of all strings returned by getMessage() equals, in order, the received bytes that found room in the receive buffer (at most 256 pending), each exactly once; each returned string ends with its newline, unless it drains the buffer.", "quantifier": "every interleaving of byte receptions and getMessage()/hasMessage() calls (each call atomic), every byte sequence", "why_tests_cant": "Line splitting, ring wrap-around and overflow interact over unbounded byte histories.", "anchors": ["lib/hostinterface/hostinterface.cpp: hostInterface::getMessage, hasMessage", "lib_target/cnc3axis/hostinterface/hostinterface_uart.cpp: rxReady"]}
{"id": "C08", "title": "hasMessage() is true iff a complete line is stored", "statement": "After any history, hasMessage() holds iff the stored, not yet returned bytes contain a newline; and when it holds the next getMessage() returns exactly the bytes up to and including the first stored newline.", "quantifier": "every history of receptions and reads", "why_tests_cant": "The line counter is redundant state whose agreement with the buffer is a history invariant.", "anchors": ["lib/hostinterface/hostinterface.cpp: hostInterface::getMessage, hasMessage", "lib_target/cnc3axis/hostinterface/hostinterface_uart.cpp: rxReady"]}
{"id": "C09", "title": "Outgoing messages are sent whole or not at all, in order", "statement": "The bytes handed to the UART are the concatenation, in call order, of the accepted messages and nothing else; a message is accepted iff its length is at most the free space (256 minus pending bytes) and a rejected message contributes no byte at all.", "quantifier": "every history of sendMessage and transmit-ready interrupts", "why_tests_cant": "All-or-nothing behaviour over all fill levels and histories.", "anchors": ["lib/hostinterface/hostinterface.cpp: hostInterface::sendMessage", "lib_target/cnc3axis/hostinterface/hostinterface_uart.cpp: txReady"]}
{"id": "C10", "title": "A line that fits is always eventually readable", "statement": "A host that reads only when hasMessage() is true never gets stuck: from any reachable state, receiving more bytes including a newline eventually makes hasMessage() true.", "quantifier": "every reachable receive-buffer state", "why_tests_cant": "Liveness over all reachable states.", "anchors": ["lib/hostinterface/hostinterface.cpp: hostInterface::hasMessage, getMessage", "lib_target/cnc3axis/hostinterface/hostinterface_uart.cpp: rxReady"]}
{"id": "C11", "title": "A reception interrupt during getMessage() loses nothing", "statement": "The result of C07 still holds when byte-reception interrupts fire between the individual memory accesses of getMessage().", "quantifier": "every interleaving of interrupt executions with the load/modify/store steps of getMessage()", "why_tests_cant": "Races need a specific interleaving at instruction granularity, which tests do not schedule.", "anchors": ["lib/hostinterface/hostinterface.cpp: hostInterface::getMessage", "lib_target/cnc3axis/hostinterface/hostinterface_uart.cpp: rxReady", "src/threadsafety.md"]}
{"id": "C12", "title": "Step buffer delivers signal patterns in FIFO order", "statement": "The k-th read() after initialize() returns the signal pattern of the k-th accepted write() since initialize() (including the priming writes); nothing is duplicated, reordered or dropped, as long as no overflow/underflow is reported.", "quantifier": "every interleaving of reads (timer interrupt) and writes (main loop)", "why_tests_cant": "All interleavings and ring wrap-arounds.", "anchors": ["lib/outputs_stepper_motor/stepbuffer.cpp: stepBuffer::write, read, initialize", "src/cnc3axis/main.cpp: pit1_isr, loop"]}
{"id": "C13", "title": "Pins change at exactly the programmed times", "statement": "With the output timer's one-period reload pipeline, if the buffer never runs below three entries at an interrupt, the time between the pin updates of entry k+1 and entry k+2 equals the timeBefore that was written with entry k+2, for every k: the waveform on the pins is the written waveform.", "quantifier": "every sequence of writes and timer interrupts with at least three entries buffered at each interrupt", "why_tests_cant": "The two-slot time shift, ring wrap and hardware pipeline interact over all histories.", "anchors": ["lib/outputs_stepper_motor/stepbuffer.cpp: stepBuffer::write, read", "src/cnc3axis/main.cpp: pit1_isr", "lib_target/cnc3axis/outputs/timers.cpp: setOutputTimerReload"]}
{"id": "C14", "title": "Step buffer time accounting is exact", "statement": "getTimeInTicks() always equals the timeBefore total of all accepted writes minus that of all entries read, and needsFilling() is true iff fewer than the minimum number of entries or less than the minimum time is pending according to these figures.", "quantifier": "every interleaving of reads and writes without wrap of the 32-bit total", "why_tests_cant": "Running sums over unbounded histories; the two-slot shift makes write and read subtract different cells.", "anchors": ["lib/outputs_stepper_motor/stepbuffer.cpp: stepBuffer::getTimeInTicks, needsFilling, write, read"]}
{"id": "C15", "title": "Step buffer overflow and underflow are reported and harmless to the stored data", "statement": "A write() to a full buffer changes nothing but the error flag; a read() from an empty one returns {1000,1000} and changes nothing but the error flag; getLastError() returns the most recent incident since its last call and clears it.", "quantifier": "every call history", "why_tests_cant": "Histories.", "anchors": ["lib/outputs_stepper_motor/stepbuffer.cpp: stepBuffer::write, read, getLastError"]}
{"id": "C16", "title": "Step buffer initialization terminates and primes the buffer", "statement": "initialize() returns for every minimum time and level passed to the constructor, leaving needsFilling() false and only zero signals in the buffer.", "quantifier": "all constructor arguments (two 32-bit values)", "why_tests_cant": "Termination over 2^64 configurations.", "anchors": ["lib/outputs_stepper_motor/stepbuffer.cpp: stepBuffer::stepBuffer, initialize, needsFilling"]}
{"id": "C17", "title": "The filling loop never drops a step", "statement": "In the firmware's main loop (while needsFilling(): calculate, write) no calculated output is ever rejected by the step buffer, so no motor pulse is lost.", "quantifier": "every sequence of calculated outputs and every schedule of output interrupts", "why_tests_cant": "The buffer only overflows for dense outputs sustained over hundreds of entries.", "anchors": ["src/cnc3axis/main.cpp: loop", "lib/outputs_stepper_motor/stepbuffer.cpp: stepBuffer::needsFilling, write", "lib_target/cnc3axis/general/machineproperties.h: minStepBufferTotalTimeTicks, minStepBufferLevel"]}
{"id": "C18", "title": "A step command produces one well-formed pulse", "statement": "A stepForward/stepBackward on an axis appears on that axis as: direction set (and stable) one tick before the rising edge, step line high for exactly one tick, direction still stable while the step line is high, provided the same axis is not stepped again on the next tick, and also when the step line falls, provided it is not stepped again on the tick after that; direction bit is 1 for backward, 0 for forward.", "quantifier": "every prior signal state, every axis, every continuation", "why_tests_cant": "Three-stage shift pipeline shared by all axes; all states and continuations.", "anchors": ["lib/outputs_stepper_motor/stepsignals.cpp: stepSignals::next, stepForward, stepBackward, output"]}
{"id": "C19", "title": "Every commanded step is a pulse on the wire", "statement": "For any sequence of ticks with step commands, the number of rising edges of an axis' step line equals the number of step commands on that axis, and the direction line at each rising edge is that of the corresponding command.", "quantifier": "every per-tick command sequence", "why_tests_cant": "Pulses of consecutive ticks overlap in the pipeline; all sequences.", "anchors": ["lib/outputs_stepper_motor/stepsignals.cpp: stepSignals::next, stepForward, stepBackward"]}
{"id": "C20", "title": "Stepping one axis never disturbs another", "statement": "stepForward/stepBackward on one axis leave every other axis' step and direction bits unchanged in all pipeline stages, and axis numbers outside the machine's axes (>= nmbrAxis) have no effect at all.", "quantifier": "every state, every pair of axes, every 32-bit axis argument", "why_tests_cant": "All states × all arguments (bit masks, off-by-one guard).", "anchors": ["lib/outputs_stepper_motor/stepsignals.cpp: stepSignals::stepForward, stepBackward"]}
{"id": "C21", "title": "Output stream is a lossless run-length encoding of the tick waveform", "statement": "Expanding the emitted (timeBefore, signals) entries — hold the previous signals for timeBefore-1 ticks and then switch — reproduces exactly the per-tick signal waveform; entries are only emitted on a change or when the maximum interval has elapsed.", "quantifier": "every per-tick waveform, every maximum interval", "why_tests_cant": "Encoding/decoding over unbounded waveforms.", "anchors": ["lib/outputs_stepper_motor/stepsignals.cpp: stepSignals::isModified, isTimedOut, output, next", "lib/motion/motionctrl.cpp: motionCtrl::calcNextStepperMotorSignals"]}
{"id": "C22", "title": "Every emitted entry has a timer-safe duration", "statement": "Every entry returned by calcNextStepperMotorSignals() has 1 <= timeBefore <= max(1, maximum interval), so the interrupt's reload value timeBefore-1 never wraps around and no gap exceeds the configured interval.", "quantifier": "every controller state and every number of earlier calls", "why_tests_cant": "A wrap would need a zero that only some history could produce.", "anchors": ["lib/motion/motionctrl.cpp: motionCtrl::calcNextStepperMotorSignals", "lib/outputs_stepper_motor/stepsignals.cpp: stepSignals::output, isTimedOut", "src/cnc3axis/main.cpp: pit1_isr"]}
{"id": "C23", "title": "Reported machine position equals the pulses emitted", "statement": "At any time, each axis' machine position in steps equals its value at the last resetMachinePosition() plus forward minus backward step commands issued to the signal generator since; together with C19 it equals the pulses on the wire.", "quantifier": "every history of appended motions, start/stop and calculations", "why_tests_cant": "Holds over whole histories of motions.", "anchors": ["lib/motion/motionctrl.cpp: motionCtrl::stepForward, stepBackward, move, getMachinePosition, resetMachinePosition"]}
{"id": "C24", "title": "The signal calculation always returns", "statement": "calcNextStepperMotorSignals() terminates in every state: after at most the maximum-interval number of ticks an entry is returned, whatever motions are queued (including zero-duration ones) and whatever their floating-point parameters are.", "quantifier": "every controller state with any queue contents", "why_tests_cant": "Non-termination hides in rare float values / queue contents.", "anchors": ["lib/motion/motionctrl.cpp: motionCtrl::calcNextStepperMotorSignals", "lib/outputs_stepper_motor/stepsignals.cpp: stepSignals::isTimedOut"]}
{"id": "C25", "title": "Motions are executed once each, in the order appended", "statement": "Motions accepted by append() (queue of 32) are executed in append order, each exactly once; append() on a full queue leaves the queue unchanged and reports motionBufferOverflow.", "quantifier": "every history of append / start / stop / flush / calculation calls", "why_tests_cant": "Queue histories with wrap-around.", "anchors": ["lib/motion/motionctrl.cpp: motionCtrl::append, calcNextStepperMotorSignals, flushMotionBuffer", "lib/motion/motionbuffer.cpp: motionBuffer::push, pop, isFull, getHead, flush"]}
{"id": "C26", "title": "Controller state and reported events agree", "statement": "start() on a non-empty queue reports motionStarted and makes the controller running, on an empty queue does nothing; the controller becomes stopped only in a calculation that also reports motionStopped; allMotionsCompleted is reported exactly when the last queued motion completes, preceded by its motionCompleted; flushMotionBuffer() acts only while stopped; one motionCompleted per completed motion.", "quantifier": "every history", "why_tests_cant": "Event/state agreement over all histories.", "anchors": ["lib/motion/motionctrl.cpp: motionCtrl::start, stop, isRunning, flushMotionBuffer, calcNextStepperMotorSignals"]}
{"id": "C27", "title": "stop() never corrupts the motion queue", "statement": "After stop(), in any state, the motion queue keeps a level between 0 and 32 and later append() calls on a non-full queue are accepted.", "quantifier": "every reachable controller state", "why_tests_cant": "Needs stop() in the particular state where the queue is already empty.", "anchors": ["lib/motion/motionctrl.cpp: motionCtrl::stop, calcNextStepperMotorSignals, append", "lib/motion/motionbuffer.cpp: motionBuffer::pop, isFull"]}
{"id": "C28", "title": "At most one step per axis per tick, never in both directions", "statement": "On each tick each axis moves by at most one step; it steps forward only if the commanded position is at least 0.55 steps ahead (0.5 plus hysteresis), backward only if at least 0.55 steps behind; never both; axes that do not take part in the motion never step.", "quantifier": "every commanded position and machine position, every motion", "why_tests_cant": "Real-valued decision boundary; all values.", "anchors": ["lib/motion/motionctrl.cpp: motionCtrl::move, needStepForward, needStepBackward"]}
{"id": "C29", "title": "Machine position tracks the commanded position", "statement": "If an axis starts within 0.55 steps of the commanded position and the commanded position changes by at most one step per tick, the machine position is within 0.55 steps of the command after every tick, for motions of any length.", "quantifier": "every commanded trajectory respecting the rate bound, of any length", "why_tests_cant": "Accumulated error over unboundedly many ticks.", "anchors": ["lib/motion/motionctrl.cpp: motionCtrl::move, needStepForward, needStepBackward"]}
{"id": "C30", "title": "No step chatter at standstill", "statement": "With a constant commanded position the machine takes steps in one direction only, as many as needed to come within the band, and none afterwards; a step in one direction is never followed by an opposite step unless the commanded position has moved back by at least the 0.1-step hysteresis band.", "quantifier": "every commanded position, start position and tick count; every trajectory", "why_tests_cant": "Rounding ties and bands over all real values.", "anchors": ["lib/motion/motionctrl.cpp: motionCtrl::needStepForward, needStepBackward", "lib_target/cnc3axis/general/machineproperties.h: hysteresis"]}
{"id": "C31", "title": "Acceleration/deceleration phases start and end as requested", "statement": "For every phase computed by calculate(), s(0)=0, v(0)=vStart, s(duration)=length, v(duration)=vEnd, duration>=0 and length>=0, for first and second order profiles, accelerating, decelerating or constant.", "quantifier": "all real vStart,vEnd>=0, aMax>0, dMax<0, jMax>0", "why_tests_cant": "Continuum of parameters and the two branches (jerk-limited peak reached or not).", "anchors": ["lib/motion/speedprofileaccdec.cpp: speedProfileAccDec::calculate, s, v"]}
{"id": "C32", "title": "Speed is the derivative of distance and acceleration the derivative of speed", "statement": "Within a phase, distance is continuously differentiable with derivative v(t) at every time strictly inside the phase, including the segment boundaries; for second-order profiles v is continuously differentiable with derivative a(t).", "quantifier": "all parameters and all times", "why_tests_cant": "Continuity at the segment boundaries for a continuum of parameters.", "anchors": ["lib/motion/speedprofileaccdec.cpp: speedProfileAccDec::s, v, a"]}
{"id": "C33", "title": "Phases respect acceleration and speed bounds", "statement": "Within a phase dMax <= a(t) <= aMax, v(t) lies between vStart and vEnd, is monotone in t, and for second order profiles the jerk never exceeds jMax (|a(t1)-a(t2)| <= jMax*|t1-t2|).", "quantifier": "all parameters and times", "why_tests_cant": "Continuum of parameters.", "anchors": ["lib/motion/speedprofileaccdec.cpp: speedProfileAccDec::a, v, calculate"]}
{"id": "C34", "title": "A planned motion covers exactly its length", "statement": "After optimize(), distance already done plus the lengths of the three phases equals the trajectory length, every phase has non-negative length and duration, and s(duration) equals the length: the motion ends exactly at the commanded end point, with final speed vEnd.", "quantifier": "all trajectories with positive length, all feed rates, overrides, machine limits, both strategies, first and second order; plans without a stop (for those with a stop see C38)", "why_tests_cant": "Branching (triangular/trapezoidal/first/second order) over a continuum of parameters.", "anchors": ["lib/motion/motionitem.cpp: motion::optimize, s, v, vTri"]}
{"id": "C35", "title": "A planned motion never exceeds its speed limits", "statement": "With the maximize-speed strategy the speed v(t) never exceeds max(vStart, vEnd, min(vMax, feed*override)) at any time of the motion, and is never negative.", "quantifier": "all parameters and times", "why_tests_cant": "Continuum.", "anchors": ["lib/motion/motionitem.cpp: motion::optimize, v, vTri"]}
{"id": "C36", "title": "Motion along the trajectory is forward only and speed-consistent", "statement": "The distance travelled s(t) is continuous and non-decreasing over the whole motion, across phase boundaries, and v(t) is continuous.", "quantifier": "all parameters and times; plans without a stop (for those with a stop see C38)", "why_tests_cant": "Continuum.", "anchors": ["lib/motion/motionitem.cpp: motion::s, v, optimize"]}
{"id": "C37", "title": "Re-planning a running motion never jumps", "statement": "When stop() or start() re-plans the motion in progress at time t, position and speed at time t according to the new plan equal those according to the old plan.", "quantifier": "every plan, every time t within it, both strategies", "why_tests_cant": "Requires hitting particular instants in the acceleration phase with exact comparison of old and new plan.", "anchors": ["lib/motion/motionitem.cpp: motion::optimize(overrides&, motionStrategy, float), s, v", "lib/motion/motionctrl.cpp: motionCtrl::stop, optimize"]}
{"id": "C38", "title": "A stop request always brings the motion to rest", "statement": "For any motion planned to end at rest, a stop request at any time yields a plan with cruise speed 0 that comes to rest (speed 0) at tStop within the current trajectory, without exceeding the deceleration limit.", "quantifier": "every plan and every stop time", "why_tests_cant": "Continuum of stop instants.", "anchors": ["lib/motion/motionitem.cpp: motion::optimize, vTri", "lib/motion/motionctrl.cpp: motionCtrl::stop, calcNextStepperMotorSignals"]}
{"id": "C39", "title": "Axis limits are respected by the path limits", "statement": "For a straight motion with path speed v<=vMax and path acceleration between dMax and aMax as computed by limit(), every axis' own speed and acceleration stay within that axis' configured vMax/aMax/dMax; the computed limits are the largest with this property.", "quantifier": "every direction vector, every axis configuration", "why_tests_cant": "Continuum of directions.", "anchors": ["lib/motion/motionitem.cpp: motion::limit"]}
{"id": "C40", "title": "Straight motions go straight to the end point", "statement": "For a linear motion, the axis positions at distance s are start + delta*s/length: collinear with start and end, equal to start at s=0 and to the end position at s=length.", "quantifier": "every start, delta with positive length, every s", "why_tests_cant": "Continuum.", "anchors": ["lib/motion/motionitem.cpp: motion::positionInMmFromDistanceTravelled", "lib/motion/motiontrajectory.cpp: motionTrajectory::set"]}
{"id": "C41", "title": "Arc motions stay on the circle", "statement": "For an arc motion each point of the path keeps exactly the radius distance to the arc centre in the arc plane, starts at the start point, ends at the end point, and the remaining axis moves linearly (helix).", "quantifier": "every arc start, centre, angle and s", "why_tests_cant": "Continuum.", "anchors": ["lib/motion/motionitem.cpp: motion::positionInMmFromDistanceTravelled, positionFromDistance", "lib/motion/motiontrajectory.cpp: motionTrajectory::set"]}
{"id": "C42", "title": "G-code reading ignores blanks, comments and letter case", "statement": "Two lines that differ only in spaces, tabs, letter case and parenthesised comments yield the same words; everything after the first newline or NUL is ignored.", "quantifier": "every pair of character strings related that way", "why_tests_cant": "Infinite set of strings.", "anchors": ["lib/gcode/gcodeblock.cpp: gCodeBlock::getBlockFromString"]}
{"id": "C43", "title": "Reading a line never overruns its buffers", "statement": "getBlockFromString() stores at most 16 words and never writes outside its buffers, for every NUL- or newline-terminated input.", "quantifier": "every input string", "why_tests_cant": "Memory safety for all inputs, including over-long lines.", "anchors": ["lib/gcode/gcodeblock.cpp: gCodeBlock::getBlockFromString", "lib/gcode/gcodeblock.h: maxBlockLength, maxNmbrWords"]}
{"id": "C44", "title": "Words survive printing and reading back", "statement": "A block of at most 16 words printed as letter followed by its number text (no letters in it, at most 15 characters) is read back as exactly these words, in order.", "quantifier": "every list of at most 16 words", "why_tests_cant": "Round-trip over all word lists.", "anchors": ["lib/gcode/gcodeblock.cpp: gCodeBlock::getBlockFromString"]}
{"id": "C45", "title": "Conflicting blocks are rejected without side effects", "statement": "A block containing two words of the same modal group, or the same value letter twice, is rejected with the corresponding error, produces no motion, and leaves the complete interpreter state (modal state, feed, position, offsets) unchanged.", "quantifier": "every interpreter state and every block", "why_tests_cant": "All word combinations × all states.", "anchors": ["lib/gcode/gcode.cpp: gCode::parseBlock", "lib/gcode/gcodeblock.cpp: gCodeBlock::countModalGroupAndOthers, hasModalGroupViolation, hasLetterWordViolation"]}
{"id": "C46", "title": "Modal settings persist until changed", "statement": "A modal group's setting after a block is the one named by a word of that group in the block if there is one, and otherwise its previous value; settings of other groups are not touched.", "quantifier": "every state, every accepted block, every group", "why_tests_cant": "All combinations.", "anchors": ["lib/gcode/gcode.cpp: gCode::parseBlock, setUnitsMode, setdistanceMode, setArcPlane, setWCSMode, setFeedrateMode, setSpindleMode, setCoolantMode, setOverrideMode"]}
{"id": "C47", "title": "Consecutive motions connect", "statement": "Over any program, each motion handed to the motion controller starts exactly at the end position of the previous one (or at the initial position), and blocks that produce no motion do not change the position.", "quantifier": "every sequence of blocks", "why_tests_cant": "Invariant over whole programs.", "anchors": ["lib/gcode/gcode.cpp: gCode::parseBlock, calcMotion, calcNextPosition, updatePosition"]}
{"id": "C48", "title": "Coordinates mean what the distance mode says", "statement": "In absolute mode (G90) the end position of each mentioned axis is the programmed coordinate and unmentioned axes stay; in incremental mode (G91) mentioned axes move by the programmed amount and unmentioned axes stay.", "quantifier": "every state and block", "why_tests_cant": "Depends on values left over from any earlier block.", "anchors": ["lib/gcode/gcode.cpp: gCode::calcNextPosition, getAxisOffsetRadiusWords"]}
{"id": "C49", "title": "Inches and millimetres are converted consistently", "statement": "Under G20 all coordinates, offsets, radii and feed rates are multiplied by 25.4 relative to G21, so the same program in either unit yields the same motions; switching units never moves an axis that is not mentioned.", "quantifier": "every state and block", "why_tests_cant": "All programs and switch points.", "anchors": ["lib/gcode/gcode.cpp: gCode::calcNextPosition, calcArcCenterAndRadius, calcSpeedAndOrDuration, setUnitsMode"]}
{"id": "C50", "title": "No feed motion without a feed rate", "statement": "A feed motion (G1/G2/G3, explicit or modal) with no positive feed rate in force is rejected with InvalidFeedrate and does not move; every accepted feed motion has a positive speed.", "quantifier": "every state and block", "why_tests_cant": "All modal histories.", "anchors": ["lib/gcode/gcode.cpp: gCode::parseBlock, setFeedrateValue, setFeedrateMode, calcSpeedAndOrDuration"]}
{"id": "C51", "title": "Arcs lie in the selected plane", "statement": "The two arc axes and the linear axis of a G2/G3 motion are X,Y/Z for G17, Z,X/Y for G18 and Y,Z/X for G19.", "quantifier": "every state and block", "why_tests_cant": "All modal states; machine variants with fewer axes.", "anchors": ["lib/gcode/gcode.cpp: gCode::setArcAxisFromPlane"]}
{"id": "C52", "title": "Arc centre is equidistant from both ends", "statement": "For an arc given by radius R, whenever the distance between start and end is positive and at most 2|R|, the computed centre lies at distance |R| from start and from end; for I/J/K arcs the centre is start plus offset and the radius is the offset's length.", "quantifier": "all real start, end, R", "why_tests_cant": "Continuum, sign cases.", "anchors": ["lib/gcode/gcode.cpp: gCode::calcArcCenterAndRadius"]}
{"id": "C53", "title": "Arc direction follows G2/G3", "statement": "G2 arcs have strictly negative and G3 arcs strictly positive swept angle, of magnitude at most one full turn, and start angle plus swept angle is the direction of the end point.", "quantifier": "all real geometries", "why_tests_cant": "Quadrant cases over a continuum.", "anchors": ["lib/gcode/gcode.cpp: gCode::calcArcAngles"]}
{"id": "C54", "title": "Spindle and coolant settings accompany each motion", "statement": "Each motion carries the spindle direction/speed and coolant flags of the modal state in force in its block; M3/M4/M5, M7/M8/M9 and S take effect in the same block, and clear/set exactly their own outputs.", "quantifier": "every state and block", "why_tests_cant": "All modal histories.", "anchors": ["lib/gcode/gcode.cpp: gCode::setSpindleMode, setSpindleSpeed, setCoolantMode, calcPeripherals"]}
{"id": "C55", "title": "Dwell pauses in place", "statement": "A block with G4 and P>=0 yields a pause of exactly P seconds, no axis movement, and unchanged position and motion mode; without P it is not executed.", "quantifier": "every state and block", "why_tests_cant": "All states/blocks.", "anchors": ["lib/gcode/gcode.cpp: gCode::parseBlock, calcSpeedAndOrDuration"]}
{"id": "C56", "title": "Only documented outcomes are reported", "statement": "parseBlock() reports a motion only together with a 'motion available' result; an error result always comes with a defined error and no motion.", "quantifier": "every state and block", "why_tests_cant": "All paths through the parser.", "anchors": ["lib/gcode/gcode.cpp: gCode::parseBlock, getParseResult, getLastError"]}
{"id": "C57", "title": "A block is consumed by finitely many parse calls, one motion per block", "statement": "Calling parseBlock() while hasWords() terminates for every block and yields at most one motion per block.", "quantifier": "every block and state", "why_tests_cant": "Termination over all blocks.", "anchors": ["lib/gcode/gcode.cpp: gCode::parseBlock", "lib/gcode/gcodeblock.cpp: gCodeBlock::removeWord, hasWords"]}
{"id": "C58", "title": "Homing completes only after every homeable axis was homed in order", "statement": "homingCompleted is reported only after, for each axis of the configured sequence that has the required limit switch and in that order: its switch was seen closed (or was already closed), then seen open, then the controller reported standstill after the offset move.", "quantifier": "every event history", "why_tests_cant": "Protocol over all event orders.", "anchors": ["lib/maincontroller/homing.cpp: homing::start, nextAxis, selectAxis, handleEvents, enterState, goTo"]}
{"id": "C59", "title": "Homing reacts only to its own axis' switch", "statement": "Limit-switch events of other axes, and events that the current homing stage does not wait for, do not change the homing stage and issue no motor command.", "quantifier": "every stage and event", "why_tests_cant": "All stage × event pairs and histories.", "anchors": ["lib/maincontroller/homing.cpp: homing::handleEvents"]}
{"id": "C60", "title": "Homing moves go towards, then away from the switch at the configured speeds", "statement": "Every homing approach move goes in the configured homing direction at vHoming over the axis' full travel, every release move in the opposite direction at vHomingSlow, every offset move opposite by homingOffset at vHoming, always on the axis being homed and only after the previous move was stopped/flushed.", "quantifier": "every event history and configuration", "why_tests_cant": "All histories/configurations.", "anchors": ["lib/maincontroller/homing.cpp: homing::enterState"]}
{"id": "C61", "title": "Homing without limit switches fails safely", "statement": "If no axis of the sequence has the required limit switch, start() reports homingError, commands no motion and stays in the lost state.", "quantifier": "every configuration", "why_tests_cant": "All configurations.", "anchors": ["lib/maincontroller/homing.cpp: homing::start, selectAxis, nextAxis"]}
{"id": "C62", "title": "Each input index reads its own pin", "statement": "After sampling, input i is true iff its wired pin is high, for each wired input independently of all others; indices beyond the table read false.", "quantifier": "all 2^96 port readings and all indices", "why_tests_cant": "Bit shuffling over all port values.", "anchors": ["lib_target/cnc3axis/inputs/switches.cpp: allInputs::sample, get", "src/cnc3axis/main.cpp: loop"]}
{"id": "C63", "title": "Switch changes reach the homing logic in order", "statement": "In the main loop every debounced change is queued in input order within a sampling round and handled once, in order, one per loop iteration; none is lost as long as the event queue does not overflow.", "quantifier": "every sample history and loop schedule", "why_tests_cant": "All schedules.", "anchors": ["src/cnc3axis/main.cpp: loop", "lib/event/eventbuffer.cpp: eventBuffer::pushEvent", "lib/inputs/debouncedinput.cpp: debouncedInput::getEvent"]}
{"id": "C64", "title": "A feed move ends on the commanded step", "statement": "Executing one straight motion from rest at a matching position, sampled every tick with axis speed at most one step per tick, ends with every axis within 0.55 steps plus the travel of the final partial tick of the commanded end position.", "quantifier": "every motion, every tick width", "why_tests_cant": "Whole-execution accumulation.", "anchors": ["lib/motion/motionctrl.cpp: motionCtrl::calcNextStepperMotorSignals, move", "lib/motion/motionitem.cpp: motion::optimize, s"]}
{"id": "C65", "title": "Work coordinate selection is consistent", "statement": "The end position of an absolute move is the programmed coordinate plus the origin of the selected work coordinate set, and G53 uses machine coordinates for its block only, leaving the selected set unchanged.", "quantifier": "every state and block", "why_tests_cant": "All modal histories.", "anchors": ["lib/gcode/gcode.cpp: gCode::setWCSMode, calcNextPosition, parseBlock"]}
{"id": "C66", "title": "The motion clock advances one sample width per tick and carries over between motions", "statement": "Every calculation tick of a running controller advances the time within the motion by exactly one sample width, less the durations of the motions that complete on that tick, so no time is lost or gained at motion boundaries; after the last motion the clock is zero; a stopped controller's clock stands still.", "quantifier": "every reachable controller state, exact arithmetic on times", "why_tests_cant": "Holds over arbitrary histories; errors accumulate over many motions.", "anchors": ["lib/motion/sampletime.cpp: sampleTime::next, initialize, initializeNextMotion, isBeyond", "lib/motion/motionctrl.cpp: motionCtrl::calcNextStepperMotorSignals, flushMotionBuffer"]}
{"id": "C67", "title": "The maximize-speed plan really maximizes", "statement": "With the maximize-speed strategy the cruise speed of a plan is the feed rate limit (or the axis limit) whenever the length permits; otherwise it is the highest speed from which the motion can still slow down in time: any higher cruise speed would need more than the available length.", "quantifier": "all lengths, start and end speeds, limits", "why_tests_cant": "Optimality over a continuum of candidate speeds.", "anchors": ["lib/motion/motionitem.cpp: motion::optimize, vTri"]}
{"id": "C68", "title": "A stopped motion can be resumed", "statement": "After a stop request that has come to rest (or at any time of the stop) a new start re-plans the rest of the motion from the position and speed reached, so that the motion still ends exactly at its commanded end point.", "quantifier": "every plan, every stop time, every restart time", "why_tests_cant": "Continuum of stop and restart instants; sequences of re-plans.", "anchors": ["lib/motion/motionitem.cpp: motion::optimize(overrides&, motionStrategy, float)", "lib/motion/motionctrl.cpp: motionCtrl::start, stop"]}
{"id": "C69", "title": "Axis limits are respected on arcs", "statement": "At any path speed within the limit computed by limit() for an arc or helix not longer than the trajectory, the speed of each axis of the arc plane stays within that axis' own vMax, and the centripetal acceleration v^2/radius within its aMax, at every point of the arc.", "quantifier": "every arc radius, angle, centre, axis configuration, point on the arc, speed", "why_tests_cant": "Continuum of arcs and speeds.", "anchors": ["lib/motion/motionitem.cpp: motion::limit, positionInMmFromDistanceTravelled"]}
{"id": "C70", "title": "Interpreting a block accesses no array outside its bounds", "statement": "For every block and interpreter state, parseBlock() indexes the position, delta and letter arrays only with existing axis numbers.", "quantifier": "every line and interpreter state", "why_tests_cant": "It depends on combinations of words (radius or offset words beside non-arc motions, modal motions and dwells); a test needs exactly such a block and an out-of-bounds read usually goes unnoticed.", "anchors": ["lib/gcode/gcode.cpp: gCode::calcArcCenterAndRadius, setArcAxisFromPlane, parseBlock"]}
{"id": "C71", "title": "The path of a motion leads to the programmed position", "statement": "The trajectory computed for an accepted G0/G1/G2/G3 block is, at distance zero, at the position before the block and, at its full length, exactly at the position the interpreter assumes after the block, for every axis.", "quantifier": "every state and block, exact arithmetic", "why_tests_cant": "The interpreter position and the executed path are computed separately; a test checks single geometries, while a mismatch accumulates over a program.", "anchors": ["lib/gcode/gcode.cpp: gCode::calcMotion", "lib/motion/motionitem.cpp / trajectory"]}
{"id": "C72", "title": "The sign of R selects the shorter or the longer arc", "statement": "For a radius-format arc with distinct ends at most 2|R| apart, the swept angle is at most half a turn if R is positive and at least half a turn if R is negative, for both G2 and G3.", "quantifier": "all start and end points, radii, planes", "why_tests_cant": "The choice of the centre depends on the signs of several products; tests sample only a few quadrants.", "anchors": ["lib/gcode/gcode.cpp: gCode::calcArcCenterAndRadius, calcArcAngles"]}
{"id": "C73", "title": "The shipped switch configuration is consistent", "statement": "In the shipped configuration the input that homing reads to see whether an axis' limit switch is closed is the input whose debounced changes are reported by exactly the events that homing waits for on that axis, and every axis is homed.", "quantifier": "every axis to be homed", "why_tests_cant": "Two tables in different files (limit switch indices, order of inputs) plus a third in homing.cpp must agree; a mismatch only shows on the machine.", "anchors": ["lib_target/cnc3axis/general/machineproperties.h: limitMaxIndex", "src/cnc3axis/main.cpp: myInputs", "lib/maincontroller/homing.cpp: selectAxis"]}
{"id": "C74", "title": "A program of connected motions is executed completely", "statement": "When a queue of connected motions is started from standstill at a matching position, with more motions appended while it runs, the controller executes all of them in order, each within its feed rate and every axis' speed limit; after every tick it holds exactly the motions not yet over, each axis' machine position is within 0.55 steps plus the travel of one tick of where the program wants the axis to be at that time, and after the total time the controller is idle at the programmed end.", "quantifier": "every program (any number of motions, straight or arc), every tick width at which axes move at most half a step per tick, every point in time", "why_tests_cant": "Planner, queue, clock and step decisions have to work together over unboundedly many motions and ticks; carry-over at motion boundaries is where errors accumulate.", "anchors": ["lib/motion/motionctrl.cpp: motionCtrl::append, start, optimize, calcNextStepperMotorSignals, move", "lib/motion/motionitem.cpp: motion::set, optimize, s", "lib/motion/sampletime.cpp: sampleTime"]}
{"id": "C75", "title": "Steps of an axis are never too close together", "statement": "While a program of connected motions is executed, the tick distance between two successive steps of an axis in the same direction is at least the time to travel one step less the travel of one tick at the axis' speed in this program; between two steps in opposite directions it is at least the time the axis needs, with its acceleration limits, to turn round across the hysteresis band. On the shipped machine: 8 ticks and 67 ticks.", "quantifier": "every executed program (any number of motions, straight or arc), every pair of successive steps of every axis, also across motion boundaries", "why_tests_cant": "The worst spacing occurs for particular phases of path, tick grid and hysteresis, at any tick of an unbounded run, in particular where one motion ends and the next begins.", "anchors": ["lib/motion/motionctrl.cpp: motionCtrl::calcNextStepperMotorSignals, move", "lib/motion/motionitem.cpp: motion::optimize, s"]}
{"id": "C76", "title": "Executed programs lose no steps on the wire", "statement": "After any history without position reset whose steps were separate pulses, when a program of connected motions is executed on a machine whose axes travel less than a third of a step per tick and cannot turn round within two ticks (as the shipped one), no axis steps on two consecutive ticks, and the rising edges on each axis' step line, counted in the direction shown by its direction line, add up to the reported machine position at every time.", "quantifier": "every executed program, every axis, every time", "why_tests_cant": "Merged pulses (C19) would only occur for a rare coincidence of step times; absence needs an argument about all speeds, directions and motion boundaries.", "anchors": ["lib/motion/motionctrl.cpp: motionCtrl::calcNextStepperMotorSignals, move", "lib/outputs_stepper_motor/stepsignals.cpp", "lib/motion/motionitem.cpp: motion::optimize, s"]}
{"id": "C77", "title": "Homing orders a move only at standstill, and it is then the only motion", "statement": "In the whole machine, whenever homing orders a move, the motion controller was at standstill, the move starts from the position where the machine is, and afterwards the motion controller is running with this move as the only one in its queue; between orders the queue is empty or holds the move ordered last; before homing and after its completion the machine stands still.", "quantifier": "every motion arithmetic, homing configuration, schedule of loop iterations and port readings", "why_tests_cant": "Whether the report of a standstill belongs to the move that was stopped depends on the interleaving of calculations, sampling and pending events; tests drive homing with hand-made events in a convenient order.", "anchors": ["lib/maincontroller/homing.cpp: homingController::handleEvents, enterState", "lib/motion/motionctrl.cpp: motionCtrl::stop, start, append, flushMotionBuffer, calcNextStepperMotorSignals", "src/cnc3axis/main.cpp: setup, loop"]}
{"id": "C78", "title": "Homing does not wait for something that cannot happen", "statement": "In the whole machine, if the machine stands still and no event is pending, homing has not begun, has failed with an error, or is complete.", "quantifier": "every motion arithmetic, homing configuration, schedule of loop iterations and port readings", "why_tests_cant": "The absence of a time-out is visible only in runs in which nothing happens, of unbounded length; tests always deliver the awaited event.", "anchors": ["lib/maincontroller/homing.cpp: homingController::handleEvents, handleTimeouts", "src/cnc3axis/main.cpp: loop"]}
{"id": "C79", "title": "Names identify values", "statement": "Different values of an enumeration have different names and none is called \"unknown\"; in particular the texts the main program prints for the events it handles identify these events and their order.", "quantifier": "every value of the event, parse error, parse result, homing state, motion type, motion state, strategy, rotation, speed profile order, main state, probing state, calculation direction and host interface error enumerations; every two runs of the main program", "why_tests_cant": "Tests compare a few names; a missing or copied case shows only for the value concerned, and whether such a value can reach the log depends on everything that pushes events.", "anchors": ["lib/event/event.cpp: toString", "lib/gcode/gcodeparseerror.cpp: toString", "lib/gcode/gcodeparseresulttype.cpp: toString", "lib/maincontroller/homingstate.cpp: toString", "lib/motion/motiontype.cpp, motionstate.cpp, motionstrategy.cpp: toString", "src/cnc3axis/main.cpp: loop", "lib/motion/speedprofileorder.cpp: toString", "lib/maincontroller/mainstate.cpp: toString", "lib/maincontroller/probingstate.cpp: toString", "lib/motion/motioncalculatedirection.cpp: toString", "lib/hostinterface/hostinterfaceerror.cpp: toString"]}
{"id": "C80", "title": "The version text is complete and fits", "statement": "The version text with its terminator never exceeds its buffer of 14 characters, is \"V a.b.c\" in decimal, and differs for different versions.", "quantifier": "all triples of 32-bit numbers", "why_tests_cant": "Tests use one small version; truncation depends on the number of digits of all three components.", "anchors": ["lib/general/version.cpp: version::version"]}
{"id": "C81", "title": "Motor outputs show what the last call asked for", "statement": "After initialize, and whatever is called before and after it in any order, the enable lines of motors 1-3 and 4-6 are active exactly if the last call concerning them asked for it, each step and direction line has the level of its bit in the value written last, and no other pin of the two ports is driven.", "quantifier": "all initial register contents, all histories of calls", "why_tests_cant": "The registers exist only on the target; set and clear registers act on some bits only, so errors show for particular histories and initial contents.", "anchors": ["lib_target/cnc3axis/outputs/steppermotor.cpp: stepperMotorOutputs::initialize, write, enableMotors123, enableMotors456"]}
{"id": "C82", "title": "Motors are not enabled unless asked", "statement": "At every moment, also between the register writes of a call, no motor enable line is active unless a call has asked for it.", "quantifier": "all initial register contents, all histories of calls, every moment between register writes", "why_tests_cant": "A short pulse between two register writes is invisible to tests, which look at the outputs after the call.", "anchors": ["lib_target/cnc3axis/outputs/steppermotor.cpp: stepperMotorOutputs::initialize, enableMotors123"]}
{"id": "C83", "title": "A G-code program moves the axes to the programmed positions", "statement": "If the motions that the G-code interpreter hands out are appended to an idle motion controller of a machine that stands at the origin, in order, some before start() and the others while it runs, then the controller executes them one after the other along the programmed paths (each motion starting where the one before ended, from rest to rest, within all limits), and when it is done the position counter of every axis is within half a step, the hysteresis and the travel within a tick of the final position of the interpreter. On the cnc3axis machine with 60000 ticks per second a program of straight motions is done after at most 60000 seconds per motion and ends within 13/20 of a step. Conditions: the interpreter starts from reset; every reported block programs a path (a straight motion between different positions, or an arc whose centre has the same distance to both ends); no G53; motions are not over within one tick, end before the tick counter overflows, and stay within the range of the position counter.", "quantifier": "for all sequences of text lines and parseBlock calls, all numbers of motions, all interleavings of append, override and calculate calls", "why_tests_cant": "A test sends a few lines; the property links text parsing, modal state, geometry, planning and step generation for all programs, and the accumulated position error has to stay bounded for programs of any length.", "anchors": ["lib/gcode/gcode.cpp: gCode::getBlock, parseBlock, calcMotion", "lib/motion/motionctrl.cpp: motionCtrl::append, start, calcNextStepperMotorSignals, move", "lib/motion/motionitem.cpp: motion::set, optimize, s", "lib_target/cnc3axis/general/machineproperties.h"]}
{"id": "C84", "title": "Every started motion comes to its end", "statement": "When motions that are accepted are appended to an idle controller and started, then after finitely many calculations of motor signals all of them are completed and the controller is idle again, with the axes at the end of the last motion.", "quantifier": "for all machines, tick widths, reachable idle controllers, lists of 1 to 32 requests, and all numbers of calculations from some number on; refuted for all machines, idle controllers and traverses of length zero, for every number of calculations", "why_tests_cant": "Whether a motion ends depends on the plan over real (and infinite or undefined) numbers; a test that waits some time cannot show that a motion never ends, and the failure needs the special request of length zero with unlimited speed.", "anchors": ["lib/motion/motionctrl.cpp: motionCtrl::append, start, calcNextStepperMotorSignals", "lib/motion/motionitem.cpp: motion::set, limit, optimize", "lib/motion/motiontrajectory.cpp: motionTrajectory::set", "lib/gcode/gcode.cpp: gCode::calcSpeedAndOrDuration"]}
{"id": "C85", "title": "A dwell lasts as long as programmed and the axes stand still", "statement": "A dwell (motion type pauseAndResume with a duration) appended to an idle controller and started keeps the controller running for exactly its duration, is then completed, and no axis makes a step.", "quantifier": "for all machines, tick widths, durations (below the range of the tick counter), idle controllers and numbers of calculations", "why_tests_cant": "The behaviour depends on data left in the place of the queue by earlier motions and on the conversion of undefined numbers; tests of fresh objects see only one of the cases.", "anchors": ["lib/motion/motionitem.cpp: motion::set, optimize", "lib/motion/motionspeedprofile.cpp: motionSpeedProfile::setDuration", "lib/motion/motionctrl.cpp: motionCtrl::calcNextStepperMotorSignals, move, needStepForward"]}
{"id": "C86", "title": "Homing moves are made as ordered, by one axis alone", "statement": "When homing orders a move (axis, offset, speed) and the controller stands still, then, until homing gives the next command, the ordered axis travels straight from the position at which the move was ordered in the ordered direction, from rest to rest over exactly the ordered distance, within the limits of the machine and never faster than ordered, its position counter follows up to half a step, the hysteresis and the travel within a tick, and no other axis makes a step. The move takes at most twice as long as at any constant speed that is allowed and can be reached.", "quantifier": "for all machines and homing configurations, schedules of the main loop, input signals, numbers of calculations; on the cnc3axis machine unconditionally for the first move; for later moves in orderly schedules", "why_tests_cant": "The claim joins the homing state machine, the event queue, the motion queue, the planner and the step decision, over all timings; the position is compared at every tick.", "anchors": ["lib/maincontroller/homing.cpp: homingController::enterState, handleEvents", "lib/motion/simplifiedmotion.cpp: simplifiedMotion::set", "lib/motion/motionctrl.cpp: motionCtrl::append, start, calcNextStepperMotorSignals", "src/cnc3axis/main.cpp: loop"]}
{"id": "C87", "title": "During homing only the axis being homed moves", "statement": "If the position counter of an axis changes in an iteration of the main program, this axis is the one of the homing move that was ordered last.", "quantifier": "for all machines, configurations, orderly schedules and input signals", "why_tests_cant": "A stray step of another axis needs a particular combination of pending motions, events and switch signals; the claim is about every iteration of every schedule.", "anchors": ["lib/maincontroller/homing.cpp: homingController::handleEvents", "lib/motion/motionctrl.cpp: motionCtrl::move", "src/cnc3axis/main.cpp: loop"]}
{"id": "C88", "title": "The main program never hangs and uses the motion controller only as homing orders", "statement": "Every iteration of the main program returns, and at each time the state of the motion controller is the result of initialize, resetMachinePosition, the commands given by homing in their order (and no others), and exactly the calculations asked for by the step buffer; so all claims about histories of calls hold in the whole program.", "quantifier": "for all motion kits, targets, input signals and schedules of the main loop (any number of iterations)", "why_tests_cant": "Whether the inner loop of the calculation always ends, and that nothing else touches the controller, is a statement about all executions.", "anchors": ["src/cnc3axis/main.cpp: setup, loop", "lib/motion/motionctrl.cpp: motionCtrl::calcNextStepperMotorSignals", "lib/maincontroller/homing.cpp: homingController::handleEvents"]}
{"id": "C89", "title": "A program that is stopped brakes on its path and within all limits", "statement": "When stop() is called while a program is executed, the motion in progress goes on from where it is and from its speed, respects all speed and acceleration limits, comes to rest before the end of its path and within twice the time that the limits make necessary. Until then each axis is within one step (plus hysteresis and the travel of one tick) of where it should be, and afterwards it stays there; motionStopped is reported exactly once; no motion is lost from the queue.", "quantifier": "for all machines, programs of connected executable motions, tick widths, times of the stop at which the motion is no longer speeding up, and later calls (calculations, overrides, appended motions)", "why_tests_cant": "The braking distance depends on speed, jerk and remaining path in several branches of the planner; that the result is always on the path and within limits is a claim about all real values.", "anchors": ["lib/motion/motionctrl.cpp: motionCtrl::stop, optimize, calcNextStepperMotorSignals", "lib/motion/motionitem.cpp: motion::optimize, s", "lib/motion/speedprofileaccdec.cpp: calculate, s, v"]}
{"id": "C90", "title": "A stopped program can be resumed and ends where it was programmed to end", "statement": "When start() is called after a stop has come to rest, the motion in progress is continued from where it stands, from rest, to the end of its path, then all later motions are made; all limits are respected, the axes follow within one step (plus hysteresis and the travel of one tick), the time needed is bounded, and at last the controller is idle and the axes are at the end of the last motion.", "quantifier": "for all machines, programs of connected executable motions, tick widths, times of the stop, times of the start, overrides and later calls", "why_tests_cant": "The remaining motion is planned from an intermediate state of the floating-point profile; whether every such state can be resumed is not decided by a sample of them.", "anchors": ["lib/motion/motionctrl.cpp: motionCtrl::start, stop, optimize", "lib/motion/motionitem.cpp: motion::optimize, s, v"]}
{"id": "C91", "title": "A program can be stopped and started any number of times", "statement": "Motions are appended, and the controller is started and stopped, in any order and any number of times, with changes of the overrides in between. At every moment a number n of motions are over, the others are in the queue in order, and a distance s of the first of them has been travelled; each axis is there (within one step, plus hysteresis and the travel of one tick). The pair (n, s) never goes back, the position given by it never moves faster than the axes may, and when n reaches the number of motions the controller is idle. After a start(), all motions come to their end in the time that they may take.", "quantifier": "for all machines, histories of calls with connected executable motions, tick widths, numbers and times of stops and starts, and overrides", "why_tests_cant": "The planner continues from the state left by all earlier stops and starts; a test covers a few such histories, the claim is about every one.", "anchors": ["lib/motion/motionctrl.cpp: motionCtrl::append, start, stop, optimize, calcNextStepperMotorSignals", "lib/motion/motionitem.cpp: motion::optimize, s, v"]}
{"id": "C92", "title": "The step buffer is safe against its interrupt", "statement": "Whatever the interleaving of the single memory accesses of the main program (the loop that checks, calculates and writes) with the timer interrupt, the step buffer behaves as if needsFilling, write and read were executed one after the other: the interrupt reads the same entries, the same entries are written, and outside of write the buffer is the same. needsFilling answers \"full enough\" only if each of its two conditions held at a moment during the call.", "quantifier": "for all contents of the buffer and all schedules of accesses, calculated outputs and interrupts", "why_tests_cant": "Whether an update is lost depends on the instruction at which the interrupt hits; a test cannot place it at every one, and the native tests run without interrupts.", "anchors": ["lib/outputs_stepper_motor/stepbuffer.cpp: stepBuffer::write, read, needsFilling", "src/cnc3axis/main.cpp: loop, pit1_isr", "src/threadsafety.md"]}
{"id": "C93", "title": "The motion clock in single precision", "statement": "With the float arithmetic of sampleTime::next (with or without fused multiply-add): the time never goes back; each reading is within a relative error of 2^-22 of the exact time (number of samples times sample width plus offset); and for the first 2^22 samples of a motion (69 s at 60 kHz) the time strictly advances at every sample.", "quantifier": "for all sample widths of at least 2^-126 s, all offsets >= 0, all sample numbers below 2^32", "why_tests_cant": "Rounding makes each of the 2^32 readings differ from the exact time in its own way; tests compare a few readings with a tolerance and never reach 2^24 samples, where the index itself is no longer exact.", "anchors": ["lib/motion/sampletime.cpp: sampleTime::next, setNextMotionOffset", "lib/motion/sampletime.h"]}
{"id": "C94", "title": "The step decision in single precision", "statement": "With the float arithmetic of needStepForward and needStepBackward (with or without fused multiply-add) every tick makes at most one step per axis; a step is only made when the computed position is at least 1/2 + hysteresis - slack steps away, no step only when it is within 1/2 + hysteresis + slack, where slack = (2Y+2)/2^24 for positions of up to Y steps; so the machine position tracks the computed one within 1/2 + hysteresis + slack, and a step is never followed by a step back unless the computed position moved back by at least 2 (hysteresis - slack).", "quantifier": "for all machines with hysteresis in [0, 1], all states, all sequences of ticks and all computed positions of up to 2^22 steps", "why_tests_cant": "Whether rounding flips a decision depends on the low bits of position and step size; the native tests run on a PC whose compiler may contract the operations differently from the target's.", "anchors": ["lib/motion/motionctrl.cpp: motionCtrl::needStepForward, needStepBackward, move", "lib_target/cnc3axis/general/machineproperties.h: hysteresis"]}
{"id": "C95", "title": "The distance along a planned path in single precision", "statement": "A motion between two rests planned and evaluated in float arithmetic (maximizeSpeed): the computed distance is 0 at time 0, ends within drift of the length, never falls by more than ripple as time goes on, and never rises faster than the commanded speed but for drift; the motion has a positive finite duration and no stop time. For W = 2.05 v max(v/a, v/d, sqrt(v/j)) (about the distance of a ramp) ripple is about (151 W + 7.2 L) 2^-24 and drift about (240 W + 15 L) 2^-24.", "quantifier": "for all lengths L in [2^-10, 4096] mm, speeds in [1/64, 4096] mm/s, accelerations, decelerations and jerks in [1, 65536] with j v <= 200 a^2, a^2 <= 16384 j (same for d), a and d within a factor of 1000 and j L^2 <= 2^26 v^3, all float times", "why_tests_cant": "The rounding errors depend on all the bits of five parameters and the time; a test samples a few motions at a few times and compares with a tolerance chosen by hand.", "anchors": ["lib/motion/motionitem.cpp: motion::s, motion::optimize, motion::vTri", "lib/motion/speedprofileaccdec.cpp: speedProfileAccDec::calculate, s", "lib/motion/speedprofilecruise.cpp: speedProfileCruise::s"]}
{"id": "C96", "title": "A straight motion on the 3-axis machine in single precision", "statement": "With float arithmetic throughout (planner, clock, speed profile, position, step decision), a straight motion appended to an idle controller, started and calculated any number of times: it is over after N ticks with N <= 61500 L/g + 150000 for length L and speed g; from then on the controller is idle and every motor is within one step of the end position; before, the motors are at every tick within one step of one common point of the straight line; an axis that does not take part makes no step; the others never step back after having stepped in their direction, and never step back at all if they started within 0.45 steps of the start position.", "quantifier": "for all straight requests (traverse or feed) within +-300 mm of at least 1/256 mm, executed alone (nothing else in the queue, no stop() or change of the overrides), each component of the displacement being 0 or at least 2^-100 mm, all feed rates and overrides with programmed speed g >= 0.1 mm/s and L^2 <= 99000 g^3 (always so from 1.5 mm/s on, at the 1 mm/s of slow homing up to 314 mm), or no feed rate, all idle controller states whose motors are within one step of the start, all numbers of calculations, with and without fused multiply-add", "why_tests_cant": "A run has millions of ticks, each with its own rounding errors in clock, profile and position; tests run a few motions and cannot bound the errors of the others, nor show that no spurious reversal can occur at any tick.", "anchors": ["lib/motion/motionctrl.cpp: append, start, calcNextStepperMotorSignals, needStepForward", "lib/motion/motionitem.cpp: motion::set, optimize, s", "lib/motion/sampletime.cpp: sampleTime::next", "lib_target/cnc3axis/general/machineproperties.h:30-46"]}
{"id": "C97", "title": "Rounding errors do not accumulate from motion to motion", "statement": "Any number of straight motions executed one after another in float arithmetic (each appended, started and calculated to its end): at the end the controller is idle and every motor is within one step of the end of the last motion.", "quantifier": "for all lists of straight motions as in C96, each starting where the one before ends, from every idle controller state within one step of the first start", "why_tests_cant": "Accumulated drift only shows after very many motions; a proof by induction covers any number of them.", "anchors": ["lib/motion/motionctrl.cpp: append, start, calcNextStepperMotorSignals", "lib/motion/motionitem.cpp: motion::set, optimize, s", "lib/motion/sampletime.cpp: sampleTime::next"]}
{"id": "C98", "title": "Queues of lines and arcs with rounding: executed in order, on their paths, to the end", "statement": "Straight motions and arcs that follow one another are appended to the queue (before the start or while the machine runs), started and calculated, in any order, with float arithmetic: at any time the queue holds exactly the last of the appended motions, the motors are within one step of a point of the motion being executed (when stopped: of the end of the last executed motion), and if nothing more is appended the controller is idle after a bounded number of calculations, within one step of the end of the last motion. Each motion is executed with the time left over from the one before; the errors do not accumulate over the queue.", "quantifier": "for all histories of append (with room in the queue), start (when stopped) and calculate calls, all lists of straight motions and arcs (with or without motion of the third axis, radius 1/64 to 100 mm) of at least 1/128 mm lasting at most 85 s at the speed asked for (0.1 mm/s or more), from every idle controller state within one step of the first start, with and without fused multiply-add, for every cosf and sinf within 2^-23 of the exact functions", "why_tests_cant": "The time left over at the end of a motion becomes the offset of the next one, so rounding of one motion reaches all later ones; which sample is the last of a motion depends on the last bit. No test can run all queues and interleavings of appending and calculating.", "anchors": ["lib/motion/motionctrl.cpp: append, start, optimize, calcNextStepperMotorSignals", "lib/motion/sampletime.cpp: sampleTime::next, nextMotion", "lib/motion/motionitem.cpp: motion::set, optimize, s"]}
{"id": "C99", "title": "From G-code text to the motors, with a controller that rounds", "statement": "A G-code program of straight motions and arcs is interpreted from reset and its motions are given to the motion controller (with float arithmetic) in any order of appending, starting and calculating. At any time the controller has executed a first part of the motions and holds the rest; when stopped, every motor is within one step of the position at which the interpreter was after that part, otherwise within one step of a point of the line or arc that the next block programs. A running machine stops after a bounded number of calculations within one step of the final position of the interpreter.", "quantifier": "for all executions of the interpreter from reset without G53 whose motions are straight or arcs with both ends on the circle (radius 1/64 to 100 mm, length up to 420 mm), at least 1/128 mm long, within 300 mm of the origin and take at most 85 s at the speed asked for (0.1 mm/s or more); all histories of append, start and calculate calls that give exactly these motions to the controller; all feed overrides up to 4", "why_tests_cant": "The claim composes text, modal state, planning, clock and step decision with rounding in every operation of the controller; tests can only run a few programs.", "anchors": ["lib/gcode/gcode.cpp: getBlock, parseBlock", "lib/motion/motionctrl.cpp: append, start, calcNextStepperMotorSignals", "lib/motion/motionitem.cpp: motion::set, optimize, s"]}
{"id": "C100", "title": "Arcs computed in float: position, radius and speed limit", "statement": "The position computed in float arithmetic at a distance s along an arc (with the linear motion of the third axis) is finite and within 0.0003 mm (0.06 steps) of the exact position at that distance, and the computed point is within 1/2500 mm of the circle. The speed that limits the planning of an arc is at most 30 mm/s and at most the speed at which the acceleration towards the centre is 200 mm/s² (up to one part in 2^21), but not lower than that by more than 1/10000; the acceleration limits are ±200 mm/s².", "quantifier": "for all arcs of radius 1/64 to 100 mm and length up to 420 mm in the workspace with a start angle of at most 4 and a sweep of at most 7 rad in magnitude, all planes, with or without motion of the third axis, clockwise and counter-clockwise, all distances up to 1/1000 mm beyond the arc, with and without fused multiply-add, every cosf and sinf within 2^-23 of the exact functions", "why_tests_cant": "The error comes from rounding the angle, its increment, cosf/sinf, radius and centre together with the rounding of the distance; tests compare some points with a tolerance, and cannot enumerate arcs, instants and math libraries.", "anchors": ["lib/motion/motiontrajectory.cpp: set, position, isMoving", "lib/motion/motionspeedprofile.cpp: limit"]}
{"id": "C101", "title": "The step buffer has room for the steps of the programs that are executed", "statement": "While the motion controller executes a program of connected motions and the main loop stores each of its outputs in the step buffer whenever the buffer asks for more, no output is lost: the buffer (shipped size and thresholds) never is full when an output that has been calculated is written. Every output of the controller lasts as long as the lines stay unchanged, so this depends on how many steps all axes make together in a given time.", "quantifier": "for all programs of connected motions on the shipped machine (Performs, cnc3axis at 60 kHz), all schedules of loop checks, writes and interrupts in which the interrupt is not starved", "why_tests_cant": "Whether the buffer overflows depends on the merged step patterns of all axes over any 750 ticks and on how the loop and the interrupt interleave; a test runs one program with one schedule.", "anchors": ["lib/outputs_stepper_motor/stepbuffer.cpp: write, needsFilling", "lib/motion/motionctrl.cpp: calcNextStepperMotorSignals", "lib/outputs_stepper_motor/stepsignals.cpp", "src/cnc3axis/main.cpp: loop (lines 164-169)", "lib_target/cnc3axis/general/machineproperties.h"]}
{"id": "C102", "title": "The main loop has 6.25 ms", "statement": "If, whenever the output timer expires, the filling loop has found within the last 375 ticks of the timer (6.25 ms, the time that one priming entry lasts) that the step buffer needs no filling, then every interrupt finds at least three outputs in the buffer, whatever else the main loop does with the motion controller, however long each part takes, and wherever the interrupts fall. Three are needed because an interrupt sets the time of the output after next. The deadline can be met for ever (as long as the buffer does not overflow), and it matters: with 477 ticks the third interrupt finds two.", "quantifier": "for all motion kits, all sequences of elapsing time, loop checks, writes, interrupts and calls on the motion controller, from the initialisation on", "why_tests_cant": "How long the main loop may be away depends on every combination of entry durations, of the moments of the last check and of the overstated total time; a test sees a few of them, on a host without the timer.", "anchors": ["src/cnc3axis/main.cpp: loop (lines 164-187), pit1_isr (lines 98-103), setup (lines 152-160)", "lib/outputs_stepper_motor/stepbuffer.cpp: needsFilling, read, initialize", "lib_target/cnc3axis/outputs/timers.cpp: reload", "lib_target/cnc3axis/general/machineproperties.h"]}
{"id": "C103", "title": "The pins show the commands of the motion controller with a constant delay", "statement": "If the main loop meets its deadline (C102) and the buffer rejects no output, then from the fourth update of the pins (at time t0) on, the level of each step line and direction line at the time t0 + 1 + i is the one that belongs to the commands of the i-th tick of the controller: no tick is shown longer, shorter, earlier or later than another. If no axis is told to step on two successive ticks, the forward minus backward pulses shown on an axis up to t0 + 1 + i are the steps commanded for it before tick i.", "quantifier": "for all motion kits with up to 15 axes, all sequences of time, checks, writes, interrupts and controller calls that meet the deadline and lose nothing, all times up to the last update, all axes", "why_tests_cant": "The delay between calculation and output is spread over the controller, its merging of equal outputs, a ring whose times and signals are stored two places apart, and a timer that reloads one period late; tests check the parts in isolation and never with real time.", "anchors": ["src/cnc3axis/main.cpp: loop (lines 164-187), pit1_isr (lines 98-103)", "lib/outputs_stepper_motor/stepbuffer.cpp", "lib/outputs_stepper_motor/stepsignals.cpp", "lib/motion/motionctrl.cpp: calcNextStepperMotorSignals", "lib_target/cnc3axis/outputs/timers.cpp"]}
{"id": "C104", "title": "The motors follow the programmed path in real time", "statement": "While the shipped machine executes a program of connected motions that leaves time to the step buffer (as C101), with a main loop that meets its deadline (C102), no output is lost, and the pulses that the pins have shown on an axis by the time t0 + 1 + m + i differ by at most 0.65 steps from the ideal position, on the path of the program with its planned speeds, i ticks after the start of the program (t0: fourth update of the pins; m: ticks before the program).", "quantifier": "for all programs of connected motions on the shipped machine whose axes are slow enough for the step buffer, all sequences of time, checks, writes, interrupts and controller calls that meet the deadline, all times up to the last update, all axes", "why_tests_cant": "It is the end-to-end claim: planner, queue, step decision, signal encoder, buffer, interrupt and timer together; no test runs them together, and on hardware the position of a motor against time is not observed.", "anchors": ["src/cnc3axis/main.cpp", "lib/motion/motionctrl.cpp", "lib/motion/motionspeedprofile.cpp", "lib/motion/motiontrajectory.cpp", "lib/outputs_stepper_motor/stepsignals.cpp", "lib/outputs_stepper_motor/stepbuffer.cpp", "lib_target/cnc3axis/outputs/timers.cpp", "lib_target/cnc3axis/general/machineproperties.h"]}
{"id": "C105", "title": "The plotter prints exactly the debounced changes of its inputs", "statement": "The program of the plotter prints, after its greeting, one line per justified change (C04) of each of its nine inputs, with the name of that input and level, in the order of the samples and within a sample in the order of the inputs; it prints nothing else, and nothing while the sampling timer has not expired.", "quantifier": "for all port readings at setup, all sequences of loop iterations with the timer expired or not, and all port readings at each sample", "why_tests_cant": "The order and completeness of the printed lines depends on unbounded sample histories of nine inputs at once.", "anchors": ["src/plotter2axis/main.cpp:60-69", "src/plotter2axis/main.cpp:112-151", "lib_target/plotter2axis/inputs/switches.cpp", "lib/inputs/debouncedinput.cpp:13-60"]}
{"id": "C106", "title": "The load meter reports the share of the last interval and the highest share since it was read", "statement": "getLoad returns 10000 divided by the number of passes of the main loop in the last completed interval of its timer (0 before the first); getMaxLoad returns the highest such value of the intervals completed since it was last called (0 if none).", "quantifier": "for all sequences of calls of run (timer expired or not), getLoad and getMaxLoad, and for every rounding of the quotient", "why_tests_cant": "The value depends on the whole history of calls, and the counter wraps only after 2^32 passes.", "anchors": ["lib_target/cnc3axis/general/mcuload.cpp:8-28", "lib_target/cnc3axis/general/mcuload.h:12-25"]}
{"id": "C107", "title": "Pressing the emergency stop button stops the machine", "statement": "When the emergency stop button is pressed (and the press outlasts debouncing), the main loop handles the press and orders a stop. (What the code does: the press is handled, but the event goes only to the homing controller, which ignores it like those of the feed hold button and of the probe; after homing every event is ignored, also those of the limit switches.)", "quantifier": "for all motion arithmetics, homing configurations, port readings and schedules of the main loop", "why_tests_cant": "A test can show that one press has no effect; that no press ever has an effect in any state of homing and motion needs an invariant over all histories", "anchors": ["src/cnc3axis/main.cpp:181-186", "lib/maincontroller/homing.cpp:98-182"]}
{"id": "C108", "title": "With float arithmetic every commanded step is one pulse on the wire", "statement": "Straight motions executed one after another in float arithmetic on the 3-axis machine never command an axis on two consecutive ticks, although each computed position, and the clock, is rounded. Hence no pulse is merged with the one before it: at any time the pulses put on the wires (rising edges of the step line, each in the direction shown by the direction line) add up to the position of the motors, which is within one step of the programmed line.", "quantifier": "for all lists of straight motions as in C96/C97 followed by another one calculated any number of times, from every history without position reset whose steps were separate pulses and that left the controller idle within one step of the start; fused or separate multiply-add", "why_tests_cant": "Whether rounding noise makes an axis step forth and back within two ticks depends on the low bits of position, speed and time; a test sees few of them, and a lost pulse of 5 micrometre is not visible in the reported position.", "anchors": ["lib/motion/motionctrl.cpp: calcNextStepperMotorSignals", "lib/outputs_stepper_motor/stepsignals.cpp: stepSignals::next, stepForward, stepBackward", "lib/motion/motionspeedprofile.cpp", "lib/motion/sampletime.cpp: sampleTime::next"]}
{"id": "C109", "title": "G and M codes are recognised exactly although numbers are binary fractions", "statement": "With the number text converted by a correctly rounding strtod() and the product with ten rounded to double precision, every line is read as the same letters and the same G and M codes (or the same undefined conversion) as in exact decimal arithmetic; in particular a code with one digit behind the point, such as G59.1, is never taken for its neighbour. The signs of all numbers are kept, too.", "quantifier": "every line of text", "why_tests_cant": "(uint32_t)(number * 10) truncates, and most tenths are no binary fractions; whether some number of up to 15 characters falls short of its integer cannot be seen from the codes a test tries.", "anchors": ["lib/gcode/gcodeblock.cpp: gCodeBlock::getBlockFromString"]}
{"id": "C110", "title": "Rounding of positions in the interpreter stays negligible", "statement": "In double precision the position of the interpreter after any sequence of absolute and incremental moves in mm or inches differs from the exact position by at most n B / 2^50, where n is the number of moves since the last absolute one and B bounds coordinates and positions; in absolute mode and mm it is the double nearest to the number that is written.", "quantifier": "every sequence of up to 2^48 moves, every B of at least 1 mm", "why_tests_cant": "Errors accumulate over whole programs; a test compares a few positions with a tolerance.", "anchors": ["lib/gcode/gcode.cpp: gCode::calcNextPosition, updatePosition"]}
{"id": "C111", "title": "A full circle is a full circle in double precision", "statement": "An arc whose programmed end is the current position is executed as a full circle in the direction of G2 or G3, in double precision as in exact arithmetic.", "quantifier": "every program in which the end of an arc and the position before it are equal", "why_tests_cant": "The decision compares an angle difference with zero; it fails only for positions that are equal mathematically, but not as binary fractions, which depends on the history of increments.", "anchors": ["lib/gcode/gcode.cpp: gCode::calcArcAngles, calcNextPosition"]}
{"id": "C112", "title": "The speed limits over a length are exact", "statement": "For every start speed, acceleration limits and length, the speeds with which any motion within the limits - of whatever shape, not only one made of the phases of the firmware - can end are exactly those between the minimize-speed and the maximize-speed value of vOut() in forward direction; the speeds with which it can start, given its end speed, are exactly those between the two values in reverse direction. The feasibility condition under which planning is correct holds for exactly the motions that are possible at all.", "quantifier": "all speeds, limits and lengths; all motions with a continuous speed", "why_tests_cant": "The statement is about all conceivable motions; a test compares a few results with numbers calculated by hand. (The code is not called by the firmware yet.)", "anchors": ["lib/motion/motionitem.cpp: motion::vOut"]}
{"id": "C113", "title": "The disabled junction code finds the best speed between two motions and keeps a queue consistent", "statement": "The part of vJunction() behind its first return computes, with the maximize-speed strategy, the greatest speed with which the left motion can end and the right one begin within the feed rates and limits of both, and with the minimize-speed strategy the least such speed, whenever there is one. Optimizing the junctions of a queue with it, any number of times, in any order and with any strategies, keeps every motion possible between its speeds and the speeds at junctions equal on both sides and within the limits; maximizing never lowers, minimizing never raises a speed.", "quantifier": "every queue of motions, every sequence of pair optimizations", "why_tests_cant": "The code is dead, so no test of the firmware executes it; the invariant is about all orders of optimization.", "anchors": ["lib/motion/motionctrl.cpp: motionCtrl::vJunction, optimizePair"]}
{"id": "C114", "title": "Unused helpers agree with the code in use", "statement": "calcSpeed() gives the end speed of every phase of constant acceleration. positionFromDistance() gives, for every moving axis, the position in mm that the controller uses and the number of whole steps towards it, and leaves the other axes untouched.", "quantifier": "every phase, trajectory, distance and axis", "why_tests_cant": "Nothing calls these functions.", "anchors": ["lib/motion/speedprofileaccdec.cpp: speedProfileAccDec::calcSpeed", "lib/motion/motionitem.cpp: motion::positionFromDistance"]}
{"id": "C115", "title": "Homing moves in single precision", "statement": "On the 3-axis machine with float arithmetic in the motion controller: when homing orders a move (axis, offset, speed) and the controller stands still, then, until homing gives the next command, the position counter of the ordered axis is within one step (and a hundredth) of a point between the position at which the move was ordered and its end, the axis never steps back, no other axis makes a step, and after the time that the move takes at its speed plus 2.5 percent plus 2.5 s the controller has stopped, at most one step from the end of the move.", "quantifier": "for all behaviours of the trigonometric functions, schedules of the main loop, input signals, numbers of calculations; unconditionally for the first move; for later moves in orderly schedules, beginning and ending within 300 mm of the origin", "why_tests_cant": "Slow moves (1 mm/s over up to 300 mm) last 300 s, 18 million ticks whose rounding errors add up; the claim bounds them for every position and timing and joins the main loop, the homing state machine and the planner.", "anchors": ["lib/maincontroller/homing.cpp: homingController::enterState", "lib/motion/simplifiedmotion.cpp: simplifiedMotion::set", "lib/motion/motionctrl.cpp: motionCtrl::append, start, calcNextStepperMotorSignals", "src/cnc3axis/main.cpp: loop"]}
{"id": "C116", "title": "A transmitter interrupt during sendMessage() corrupts nothing", "statement": "The result of C09 still holds when transmitter interrupts fire between the individual memory accesses of sendMessage(): the bytes on the wire followed by those stored are the accepted messages. A program that sends only after everything has been sent needs no masking for this.", "quantifier": "every interleaving of interrupt executions with the load/modify/store steps of sendMessage()", "why_tests_cant": "Races need a specific interleaving at instruction granularity, which tests do not schedule.", "anchors": ["lib/hostinterface/hostinterface.cpp: hostInterface::sendMessage", "lib_target/cnc3axis/hostinterface/hostinterface_uart.cpp: sendMessage, txReady", "src/threadsafety.md"]}
{"id": "C117", "title": "stop() during the cruise brakes on the line, in single precision", "statement": "When stop() is called while the cnc3axis machine cruises along a straight line, with float arithmetic throughout: at that moment the motors are within one step of a point of the line; from then on they stay within one step of points of the line that lie ahead of it, no axis steps back after having stepped forward since, and axes that do not take part are not stepped; after at most 36900 ticks (0.615 s) the controller is stopped, with the motion still in the queue, and the motors are within one step of a point of the line at most 0.32 s of travel at the speed limit further on.", "quantifier": "every straight request within the limits, start position within one step, feed override, time of the stop in the cruise, number of calculations, and way in which the compiler contracts a*b+c", "why_tests_cant": "Rounding errors of the replanned profile depend on the moment of the stop and on the length and speed of the motion; tests sample a few combinations in double precision on the host.", "anchors": ["lib/motion/motionctrl.cpp: stop, optimize, calcNextStepperMotorSignals", "lib/motion/motionitem.cpp: motion::optimize, s", "lib/motion/speedprofileaccdec.cpp: calc, s"]}
{"id": "C118", "title": "start() after stop() finishes the straight motion, in single precision", "statement": "When the cnc3axis machine has been stopped with stop() while cruising along a straight line, and start() is called, with float arithmetic throughout: the machine continues from the point of the line where it stopped; until the end of the motion its motors stay within one step of points of the line between that point and the end point, no axis steps back after having stepped forward since, and axes that do not take part are not stepped; after at most the duration of the motion at its speed plus 2 s the controller is idle and the motors are within one step of the programmed end point: interrupting a motion loses no steps.", "quantifier": "every straight request within the limits, start position within one step, feed override, time of the stop in the cruise, number of calculations before and after start(), and way in which the compiler contracts a*b+c", "why_tests_cant": "The remaining profile is planned from the rounded distance and time at which the machine happened to stop; the errors depend on the moment of the stop and the length and speed of the motion, and tests run a few combinations in double precision on the host.", "anchors": ["lib/motion/motionctrl.cpp: start, stop, optimize, calcNextStepperMotorSignals", "lib/motion/motionitem.cpp: motion::optimize, s", "lib/motion/speedprofileaccdec.cpp: calc, s"]}
{"id": "C119", "title": "Homing brakes a move when the switch changes, in single precision", "statement": "On the 3-axis machine with float arithmetic in the motion controller: when homing stops a move it has ordered, while the axis cruises, then from that moment on the controller is stopping or stopped, the axis of the move goes at most 64 steps per mm/s of its speed (0.32 s of travel) and two steps further in the direction of the move, is never more than two steps behind the place where the stop was requested, does not pass the end of the move, no other axis makes a step, and after 36900 calculations (0.615 s) the controller has stopped.", "quantifier": "for all behaviours of the trigonometric functions, schedules of the main loop, input signals, numbers of calculations, places of the stop at least 0.62 s of travel after the start of the move and 1.3 s before its end; unconditionally for the first move; for later moves in orderly schedules, beginning and ending within 300 mm of the origin", "why_tests_cant": "Where the switch closes is arbitrary, so the moment of the stop is; the claim bounds the overrun past the switch for every place and timing and joins the main loop, the homing state machine, the planner and the replanning in single precision.", "anchors": ["lib/maincontroller/homing.cpp: homingController::handleEvents, enterState", "lib/motion/motionctrl.cpp: stop, optimize, calcNextStepperMotorSignals", "lib/motion/motionitem.cpp: motion::optimize", "src/cnc3axis/main.cpp: loop"]}
{"id": "C120", "title": "In single precision homing steps one axis at a time", "statement": "With float arithmetic in the motion controller: while the main program is homing, every step pulse of every tick, also while the machine brakes after a switch, is on the axis of the homing move that was ordered last; so if the position counter of an axis changes in an iteration of the main program, it is that axis.", "quantifier": "for all machines, configurations, behaviours of the trigonometric functions, orderly schedules, input signals and numbers of calculations", "why_tests_cant": "A stray step of another axis would need a rounding error that makes a resting axis take part in a motion, or a motion of the queue that belongs to an earlier request; the claim covers every tick of every schedule.", "anchors": ["lib/maincontroller/homing.cpp: homingController::enterState", "lib/motion/motionitem.cpp: motion::isMoving", "lib/motion/motionctrl.cpp: motionCtrl::move", "src/cnc3axis/main.cpp: loop"]}
{"id": "C121", "title": "Homing is orderly if its switches act while the axes cruise", "statement": "With float arithmetic in the motion controller of the 3-axis machine: in every run of the main program in which homing stops its moves only at a place of their cruise (0.62 s of travel after the start of the move and 1.3 s before its end) and orders its moves within 300 mm of the origin, each homing move is ordered at standstill, from the position where the machine is, and is then the only motion; if no event is lost, homing never waits in vain for a standstill; and every step is on the axis of the move ordered last.", "quantifier": "for all behaviours of the trigonometric functions, input signals and schedules of the main loop in which the stops come while cruising", "why_tests_cant": "The condition that the earlier homing claims need speaks about the plan of the motion in the queue after every calculation; that it follows from where the axes are when the switches act is a statement about all reachable plans.", "anchors": ["lib/maincontroller/homing.cpp: homingController::handleEvents", "lib/motion/motionctrl.cpp: motionCtrl::calcNextStepperMotorSignals", "lib/motion/motionctrl.cpp: motionCtrl::stop", "src/cnc3axis/main.cpp: loop"]}
{"id": "C122", "title": "Homing leaves an axis 3 mm off its switch, within 0.34 mm", "statement": "With float arithmetic in the motion controller of the 3-axis machine: when homing, slowly backing off the switch of an axis, is told while cruising that the switch has opened, stops, and makes its offset move, then the axis comes to rest 600 steps (3 mm) further off the switch than it was when homing was told of the opening, but for at most 3 steps less and 67 steps (0.34 mm) more; the other axes do not move meanwhile.", "quantifier": "for all behaviours of the trigonometric functions, input signals, numbers of iterations and of calculations in each, under the conditions of C121", "why_tests_cant": "The place is the sum of the braking distance, which depends on the rounded plan at the tick of the stop, and the offset move that starts from the rounded position; a test sees single ticks.", "anchors": ["lib/maincontroller/homing.cpp: homingController::handleEvents", "lib/maincontroller/homing.cpp: homingController::enterState", "lib/motion/motionctrl.cpp: motionCtrl::stop", "lib/motion/motionctrl.cpp: motionCtrl::move", "src/cnc3axis/main.cpp: loop"]}
{"id": "C123", "title": "A new feed override takes effect at the next start(), without a jump", "statement": "The planner is the only reader of the overrides, so a new feed override reaches the motion in progress when start() is called again while the controller runs. The motion in progress then goes on from where it is and from its speed, to the same end; its speed goes over to the new one in at most twice the time that the limits make necessary, never exceeds it afterwards, is within the new feed rate (or the limits) and not less than any constant speed that is allowed. The speed and acceleration limits of all axes are respected throughout, the motions behind it are made with the new feed rate, each axis stays within one step (plus hysteresis and the travel of one tick) of where it should be, and at last the machine is idle at the programmed end.", "quantifier": "for all machines, programs of connected executable motions, tick widths, new overrides, times of the call, and later calls (calculations, overrides, appended motions)", "why_tests_cant": "The new plan begins with any speed, at any place and with any remaining length: the planner's branches for speeding up, slowing down and too short a rest all have to fit the old plan exactly.", "anchors": ["lib/motion/motionctrl.cpp: motionCtrl::start, optimize, calcNextStepperMotorSignals", "lib/motion/motionitem.cpp: motion::optimize, s, v", "lib/motion/overrides.h: overrides"]}
{"id": "C124", "title": "The step counters do not overflow", "statement": "machinePositionInSteps is an array of int32_t; incrementing the largest or decrementing the smallest value would be undefined behaviour. In every history of calls, at every tick, no counter goes beyond the largest int32_t, whatever the motions are (a step forward is decided by comparing with a target that was itself converted to int32_t). Downwards there is no such guard, but no counter can go below the smallest int32_t within the first 2^31 ticks, and never while a program is executed whose path fits the counter, however long it takes.", "quantifier": "for all histories of calls on a fresh controller and every tick of them (any arithmetic whose step-forward decision compares with an int32_t, in particular real and single precision; also the main program for any events at its ports); for all machines and programs of connected executable motions with reachable positions", "why_tests_cant": "Reaching the limits takes hours of motion over kilometres; a test sees a few steps. The upper bound relies on a conversion in one comparison that the other comparison does not have.", "anchors": ["lib/motion/motionctrl.cpp: motionCtrl::needStepForward, needStepBackward, stepForward, stepBackward, move, calcNextStepperMotorSignals", "lib/motion/motionctrl.h: machinePositionInSteps"]}
{"id": "C125", "title": "The text of a motion is complete, fits and tells the truth", "statement": "motion::toString writes one text to memory, ended by a NUL and without another NUL in it, and nothing else; it returns its length, at most 2600 characters for machines with up to three axes (each %f of a float takes at most 47). After motion::set, the numbers in the text are those of the requested motion (start, change, centre, radius, start and end angle, length) and of its speed profile, each under its name and with its unit, rounded to six decimals.", "quantifier": "for all requests, speed profiles, previous contents of the memory, addresses, and all finite or infinite floats and NaN", "why_tests_cant": "The functions chain dozens of sprintf calls on a running offset; a test prints a few motions and does not look behind the text.", "anchors": ["lib/motion/motionitem.cpp: motion::toString", "lib/motion/motiontrajectory.cpp: motionTrajectory::toString, set", "lib/motion/motionspeedprofile.cpp: motionSpeedProfile::toString", "lib/motion/speedprofileaccdec.cpp: speedProfileAccDec::toString", "lib/motion/speedprofilecruise.cpp: speedProfileCruise::toString", "lib/motion/motionperipherals.cpp: motionPeripherals::toString", "lib/motion/simplifiedmotion.cpp: simplifiedMotion::toString"]}
{"id": "C126", "title": "A G-code program sent over the serial link is read as it was sent", "statement": "The lines of a program arrive byte by byte by reception interrupts; whenever hasMessage() is true the program calls getMessage() and gives the message to getBlockFromString(). The blocks so read are those that were sent, in order, and in the end all of them; no block is read that was not sent; and with lines of at most 255 characters the exchange never gets stuck.", "quantifier": "every program of blocks with at most 16 words and 255 characters, and every interleaving of receptions with hasMessage(), getMessage(), sendMessage() and transmitter interrupts (each call atomic)", "why_tests_cant": "A test sends a few short lines and reads each at once; the losses need a full buffer, and the damage shows one line later.", "anchors": ["lib/hostinterface/hostinterface.cpp: rxReady, hasMessage, getMessage", "lib/gcode/gcodeblock.cpp: getBlockFromString"]}
{"id": "C127", "title": "A program can be abandoned: after flushing at standstill the next program is carried out as by a new controller", "statement": "After any history of calls, if the controller is stopped, flushMotionBuffer() empties the queue and restarts the clock, and keeps the position and the overrides; if it is not stopped, flushMotionBuffer() changes nothing. A program that is then appended, starts at the position getMachinePosition() reports, and is started, is carried out completely: the axes follow its paths within all limits and end at its end; nothing of the abandoned program is executed or influences it.", "quantifier": "every machine, every history after initialize(), every following program of connected motions that C74 admits, of any length", "why_tests_cant": "The effects of leftovers (queue indices, a part of the sample time, an old plan) depend on the moment at which the earlier program was stopped.", "anchors": ["lib/motion/motionctrl.cpp: flushMotionBuffer, start, append, calcNextStepperMotorSignals", "lib/motion/motionbuffer.cpp: flush"]}
{"id": "C128", "title": "A host that waits for each line to be taken needs no masking of the reception interrupt", "statement": "The reception interrupt may fire between any two memory accesses of getMessage(). If the host sends the next line only after getMessage() has returned the line before, and the program calls getMessage() only when hasMessage() is true, then the messages returned are the lines of the host, complete and in order, and getBlockFromString() reads each as it was sent; the exchange never gets stuck; and when everything has arrived and the program has nothing to do, all lines have been returned.", "quantifier": "every list of lines of at most 255 bytes and every schedule of single memory accesses and interrupts in which the host waits", "why_tests_cant": "A race between an interrupt and the single accesses of getMessage() shows in one of very many interleavings only.", "anchors": ["lib/hostinterface/hostinterface.cpp: getMessage, hasMessage", "lib_target/cnc3axis/hostinterface/hostinterface_uart.cpp: rxReady"]}
{"id": "C129", "title": "A program can be abandoned, in single precision", "statement": "As C127 with float arithmetic on the cnc3axis machine: after any history, flushMotionBuffer() at standstill makes the controller idle and keeps position and overrides; lines and arcs that begin within one step of the position of the motors and are then appended, started and calculated in any order are executed in order, on their paths within one step, to the end of the last one. In particular a straight motion that is stopped during the cruise can be abandoned 36900 ticks later.", "quantifier": "every history after initialize(); every list of lines and arcs as in C98, every order of append, start and calculate calls; every straight motion stopped during the cruise as in C117; every contraction policy", "why_tests_cant": "The remains of an abandoned motion (clock, offset, plan) depend on the tick at which it was stopped; rounding decides how the clock goes on.", "anchors": ["lib/motion/motionctrl.cpp: flushMotionBuffer, append, start, stop, calcNextStepperMotorSignals", "lib/motion/sampletime.cpp: initialize", "lib/motion/motionbuffer.cpp: flush"]}
{"id": "C130", "title": "The event queue of the main program is large enough", "statement": "If the main loop of the shipped program runs at least 16 times per sampling of the inputs, and homing is orderly (C77; in single precision it suffices that homing stops its moves only while they cruise, C121), no event is ever offered to a full event queue, whatever the nine inputs do: the homing controller is told every reported event and every debounced change of an input, in order. If every iteration samples the inputs, events can be lost.", "quantifier": "every number of iterations, every port reading at every sampling, every number of calculations per iteration, every motion kit and homing configuration; in single precision every contraction policy", "why_tests_cant": "The queue is full only if all inputs change at the same sampling in the same iterations in which a homing move ends.", "anchors": ["src/cnc3axis/main.cpp: loop, setup", "lib/event/eventbuffer.cpp: pushEvent, popEvent", "lib/maincontroller/homing.cpp: handleEvents, start", "lib/motion/motionctrl.cpp: calcNextStepperMotorSignals, start, stop, append"]}
{"id": "C131", "title": "Homing does not miss its switch", "statement": "While homing moves towards a switch it learns only from an event that the switch has closed. In the main loop: whenever homing moves towards a switch and the last five samples of this switch show it closed, the motion is stopped within 16 more iterations, whatever happens at the other inputs and in the motion controller, provided no event was lost (C130). For the opening of the switch while homing backs off the same holds if the switch was seen closed during that move; it fails if the switch opens again while the axis still slows down from the approach: then homing backs off and waits in vain for the switch to open.", "quantifier": "every run of the main loop, every port reading at every sampling, every number of calculations per iteration, every homing configuration whose switches are connected to the inputs that report their events; in single precision every contraction policy", "why_tests_cant": "Needs every interleaving of switch changes, other events and homing states; tests of homing feed events directly to the homing controller.", "anchors": ["src/cnc3axis/main.cpp: loop, setup", "lib/event/eventbuffer.cpp: pushEvent, popEvent", "lib/maincontroller/homing.cpp: handleEvents, goTo, start", "lib/inputs/debouncedinput.cpp: getEvent"]}
{"id": "C132", "title": "No axis outruns the programmed feed rate in single precision", "statement": "With float arithmetic, for every straight motion executed from standstill and for every stretch of n consecutive samplings of it (from any sampling, and also when the stretch begins before the first step or ends after the motion): the net number of steps taken by an axis in the stretch is at most 200 steps/mm times the component of the programmed speed (with feed override) along the axis times n/60000 s, plus 2 steps; and at most that of the axis limit of 30 mm/s, plus 2 steps.", "quantifier": "every straight request within the bounds of C96, every start position up to one step off, every number of calculations, every stretch of samplings, every feed override up to 4, every contraction policy of the compiler", "why_tests_cant": "The rounding of the clock (time = index x width grows to thousands of seconds), of the profile and of the position could each add up over a long motion; a test samples a few motions and a few stretches.", "anchors": ["lib/motion/motionctrl.cpp: append, start, calcNextStepperMotorSignals, needStepForward", "lib/motion/motionitem.cpp: motion::set, optimize, s", "lib/motion/sampletime.cpp: sampleTime::next", "lib_target/cnc3axis/general/machineproperties.h:30-46"]}
{"id": "C133", "title": "How far homing overruns a limit switch, in single precision", "statement": "In the whole main program with float arithmetic, with the main loop running at least 16 times per sampling of the inputs and homing stopping its moves only while they cruise: when homing moves towards a switch and an iteration takes the fifth sample in succession that shows the switch closed, homing stops the move in this iteration or in one of the 16 that follow; up to that iteration the axis moves on by at most the speed of the move times the time of the samplings calculated in these iterations, plus 2 steps; and until homing gives its next command the axis never gets further than another 0.32 s at this speed, plus 2 steps. The other axes do not move.", "quantifier": "every run of the main program, every port reading, every number of calculations per iteration, every homing move of the 3-axis machine, every contraction policy of the compiler", "why_tests_cant": "Combines the delay in the event queue, the float arithmetic of the motion and the planning of the stop; a test would have to vary all of them together on the target.", "anchors": ["src/cnc3axis/main.cpp: loop, setup", "lib/maincontroller/homing.cpp: handleEvents, goTo", "lib/motion/motionctrl.cpp: stop, calcNextStepperMotorSignals", "lib/event/eventbuffer.cpp: pushEvent, popEvent"]}
{"id": "C134", "title": "Where homing leaves an axis, measured from the opening of its switch", "statement": "In the whole main program with float arithmetic, with the main loop running at least 16 times per sampling of the inputs and homing stopping its moves only while they cruise: homing backs off the switch of an axis, the switch was seen closed during this move, and an iteration takes the fifth sample in succession that shows it open. Then homing stops the move in this iteration or in one of the 16 that follow, and when the offset move that it orders next has ended, the axis is 600 steps (3 mm) below the place where it was before this iteration, but for the way at 1 mm/s in the samplings calculated in these iterations and at most 5 steps less and 69 steps more. The other axes have not moved.", "quantifier": "every run of the main program, every port reading, every number of calculations per iteration, every axis of the 3-axis machine, every contraction policy of the compiler", "why_tests_cant": "The accuracy of the origin results from the delay in the event queue, the float arithmetic of two motions and the planning of the stop together; a test on the host exercises each separately.", "anchors": ["src/cnc3axis/main.cpp: loop, setup", "lib/maincontroller/homing.cpp: handleEvents, goTo", "lib/motion/motionctrl.cpp: stop, calcNextStepperMotorSignals", "lib/event/eventbuffer.cpp: pushEvent, popEvent"]}
{"id": "C135", "title": "Every calculation works out between one sampling and the configured maximum of the motion", "statement": "In the whole main program, after any run, n calls of the calculation of step signals work out at least n samplings of the motion and at most n times the maximum that setup has configured (375 samplings, 6.25 ms). In consequence, with float arithmetic and the conditions of C133, a homing move never gets further beyond the place where it was before the iteration in which its switch is found closed the fifth time than the way at its speed in 6.25 ms for each calculation made in this iteration and the 16 that follow, in 0.32 s, and 4 steps. The place where homing leaves an axis (C134) is uncertain by the way at 1 mm/s in 6.25 ms for each of these calculations.", "quantifier": "every run of the main program, every number of calculations, every port reading, every motion in progress, every contraction policy of the compiler", "why_tests_cant": "The bound holds for every state that the main program reaches, including between motions and at standstill; a test runs a few motions.", "anchors": ["src/cnc3axis/main.cpp: loop, setup", "lib/motion/motionctrl.cpp: calcNextStepperMotorSignals, initialize", "lib/maincontroller/homing.cpp: handleEvents, goTo"]}
