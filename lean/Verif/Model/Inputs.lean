/-!
# Model of `inputs`

`lib_target/cnc3axis/inputs/switches.{h,cpp}` (the file for plotter2axis is identical in `get` and `sample`).
The port registers are arguments: three arbitrary 32-bit words. Not modelled: `initialize` (writes configuration registers).
-/
namespace Moovr

/-- Data members — switches.h:25. -/
structure Inputs where
  theInputs : BitVec 32
  deriving DecidableEq, Repr

/-- The values of `GPIOA_PDIR`, `GPIOD_PDIR`, `GPIOE_PDIR` when they are read. -/
structure Ports where
  a : BitVec 32
  d : BitVec 32
  e : BitVec 32

namespace Inputs

/-- `nmbrInputs` — switches.h:19. -/
def nmbrInputs : Nat := 12

/-- `inputMask` — switches.h:26. -/
def inputMask : BitVec 32 := 0

/-- Fresh object — switches.h:25. -/
def fresh : Inputs := ⟨0⟩

/-- `get` — switches.cpp:38-44; `index` is a `uint32_t`. -/
def get (i : Inputs) (index : Nat) : Bool :=
  if index ≥ nmbrInputs then false else i.theInputs &&& (1#32 <<< index) != 0

/-- `sample` — switches.cpp:46-52. -/
def sample (_ : Inputs) (p : Ports) : Inputs :=
  let t := p.d &&& 0x000000FF#32
  let t := t ||| ((p.e &&& 0x01000000#32) >>> 15)
  let t := t ||| ((p.e &&& 0x02000000#32) >>> 17)
  let t := t ||| ((p.a &&& 0x00030000#32) >>> 6)
  ⟨t ^^^ inputMask⟩

end Inputs
end Moovr
