/-!
# Model of `stepperMotorOutputs`

`lib_target/cnc3axis/outputs/steppermotor.cpp` lines 11–64 (the file of `plotter2axis` is identical), as the sequence of its writes
to the registers of the ports B and C. `GPIOB_PSOR` sets and `GPIOB_PCOR` clears the bits of the output latch that are written as 1.
A pin drives its line when its multiplexer selects the port (`PORT_PCR_MUX(1)`) and its direction is output (`PDDR`). The registers
are arbitrary at first (after a reset they are all 0). Not modelled: drive strength.
-/
namespace Moovr

/-- The registers. -/
structure MotorOutputs where
  /-- output latch of port B (`GPIOB_PDOR`) -/
  b : BitVec 32
  /-- output latch of port C (`GPIOC_PDOR`) -/
  c : BitVec 32
  /-- `GPIOB_PDDR`: bit set = output -/
  dirB : BitVec 32
  /-- `GPIOC_PDDR` -/
  dirC : BitVec 32
  /-- pins of port B whose multiplexer selects the port -/
  muxB : Nat → Bool
  /-- pins of port C whose multiplexer selects the port -/
  muxC : Nat → Bool

/-- A write to a register. -/
inductive RegWrite where
  | pddrB (v : BitVec 32)
  | pddrC (v : BitVec 32)
  | psorB (v : BitVec 32)
  | pcorB (v : BitVec 32)
  | pdorC (v : BitVec 32)
  | pcrB (pin : Nat)
  | pcrC (pin : Nat)

namespace MotorOutputs

/-- What a write does. -/
def write1 (o : MotorOutputs) : RegWrite → MotorOutputs
  | .pddrB v => { o with dirB := v }
  | .pddrC v => { o with dirC := v }
  | .psorB v => { o with b := o.b ||| v }
  | .pcorB v => { o with b := o.b &&& ~~~v }
  | .pdorC v => { o with c := v }
  | .pcrB pin => { o with muxB := fun i => if i = pin then true else o.muxB i }
  | .pcrC pin => { o with muxC := fun i => if i = pin then true else o.muxC i }

/-- `enableMotors123` — steppermotor.cpp:50-56 (the enable signals are active low). -/
def enableMotors123 (onOff : Bool) : List RegWrite :=
  if onOff then [.pcorB (0x00000001#32 <<< 18)] else [.psorB (0x00000001#32 <<< 18)]

/-- `enableMotors456` — steppermotor.cpp:58-64. -/
def enableMotors456 (onOff : Bool) : List RegWrite :=
  if onOff then [.pcorB (0x00000001#32 <<< 19)] else [.psorB (0x00000001#32 <<< 19)]

/-- `initialize` — steppermotor.cpp:11-44. -/
def configure : List RegWrite :=
  [.pcrC 0, .pcrC 1, .pcrC 2, .pcrC 3, .pcrC 4, .pcrC 5, .pcrC 6, .pcrC 7, .pcrC 8, .pcrC 9, .pcrC 10, .pcrC 11,
    .pddrC 0x00000FFF#32, .pddrB 0x000C0000#32, .pcrB 18, .pcrB 19] ++ enableMotors123 false ++ enableMotors456 false

/-- `write` — steppermotor.cpp:46-48. -/
def write (value : BitVec 32) : List RegWrite := [.pdorC value]

/-- The public calls — steppermotor.h:11-16. -/
inductive Call where
  | configure
  | write (value : BitVec 32)
  | enableMotors123 (onOff : Bool)
  | enableMotors456 (onOff : Bool)

/-- Dispatch: the writes of a call. -/
def Call.writes : Call → List RegWrite
  | .configure => MotorOutputs.configure
  | .write v => MotorOutputs.write v
  | .enableMotors123 x => MotorOutputs.enableMotors123 x
  | .enableMotors456 x => MotorOutputs.enableMotors456 x

/-- The registers after some writes. -/
def after (o : MotorOutputs) (ws : List RegWrite) : MotorOutputs := ws.foldl write1 o

/-- The registers after a history of calls. -/
def run (o : MotorOutputs) (calls : List Call) : MotorOutputs := o.after (calls.flatMap Call.writes)

/-- The level driven on a pin of port B; `none`: not driven. -/
def lineB (o : MotorOutputs) (i : Nat) : Option Bool := if o.muxB i && o.dirB.getLsbD i then some (o.b.getLsbD i) else none

/-- The level driven on a pin of port C. -/
def lineC (o : MotorOutputs) (i : Nat) : Option Bool := if o.muxC i && o.dirC.getLsbD i then some (o.c.getLsbD i) else none

end MotorOutputs
end Moovr
