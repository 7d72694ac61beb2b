import Verif.Model.Homing
/-!
# Specification of homing

Which axes are to be homed, which events and moves belong to an axis, and in which order things have to happen, in terms
of the list of actions (`HomingAct`) only. Uses from the model only the types of configurations, moves and actions.
-/
namespace Moovr.HomingSpec

/-- The limit switches: axis, at the positive end?, event when it closes, event when it opens. -/
def switches : List (Nat × Bool × Event × Event) :=
  [(0, true, .limitSwitchXMaxClosed, .limitSwitchXMaxOpened), (0, false, .limitSwitchXMinClosed, .limitSwitchXMinOpened),
   (1, true, .limitSwitchYMaxClosed, .limitSwitchYMaxOpened), (1, false, .limitSwitchYMinClosed, .limitSwitchYMinOpened),
   (2, true, .limitSwitchZMaxClosed, .limitSwitchZMaxOpened), (2, false, .limitSwitchZMinClosed, .limitSwitchZMinOpened)]

variable (cfg : HomingConfig)

/-- `e` reports that the homing switch of axis `a` closed. -/
def Closes (a : Nat) (e : Event) : Prop := ∃ o, (a, cfg.homingDirection a, e, o) ∈ switches

/-- `e` reports that the homing switch of axis `a` opened. -/
def Opens (a : Nat) (e : Event) : Prop := ∃ c, (a, cfg.homingDirection a, c, e) ∈ switches

/-- The axis exists and has a limit switch at the end where it is to be homed. -/
def Homeable (a : Nat) : Prop :=
  a < cfg.n ∧ (cfg.homingDirection a = true → cfg.hasLimitsMax a = true) ∧ (cfg.homingDirection a = false → cfg.hasLimitsMin a = true)

instance : DecidablePred (Homeable cfg) := fun a => by unfold Homeable; infer_instance

/-- The axes to be homed, in order. -/
def axes : List Nat := ((List.range cfg.nmbrHomingAxis).map cfg.homingSequence).filter (Homeable cfg ·)

/-- The input to which the homing switch of an axis is connected. -/
def switchOf (a : Nat) : Nat := if cfg.homingDirection a = true then cfg.limitMaxIndex a else cfg.limitMinIndex a

/-- Towards the homing switch. -/
def sign (a : Nat) : ℚ := if cfg.homingDirection a = true then 1 else -1

/-- Towards the switch, over the whole travel, at the fast homing speed. -/
def Approach (a : Nat) (m : HomingMove) : Prop := m.axis = a ∧ m.offset = sign cfg a * cfg.sMax a ∧ m.speed = cfg.vHoming

/-- Away from the switch, over the whole travel, at the slow homing speed. -/
def Release (a : Nat) (m : HomingMove) : Prop := m.axis = a ∧ m.offset = -(sign cfg a * cfg.sMax a) ∧ m.speed = cfg.vHomingSlow

/-- Away from the switch, by the offset, at the fast homing speed. -/
def Offset (a : Nat) (m : HomingMove) : Prop := m.axis = a ∧ m.offset = -(sign cfg a * cfg.homingOffset a) ∧ m.speed = cfg.vHoming

/-- The switch of axis `a` is seen closed: it is read as closed, or an event says so. -/
def SeesClosed (a : Nat) (x : HomingAct) : Prop := x = .sawClosed (switchOf cfg a) true ∨ ∃ e, Closes cfg a e ∧ x = .handled e

/-- In this part of a trace axis `a` is homed: its switch is seen closed, later an event says that it opened, later the
offset move is commanded and started, later an event reports standstill. -/
def AxisHomed (a : Nat) (t : List HomingAct) : Prop :=
  ∃ x e m, SeesClosed cfg a x ∧ Opens cfg a e ∧ Offset cfg a m ∧
    List.Sublist [x, .handled e, .append m, .go, .handled .motionStopped] t

/-- Consecutive parts of the trace home the given axes in the given order. -/
def HomedInOrder : List Nat → List HomingAct → Prop
  | [], _ => True
  | a :: as, t => ∃ t₁ t₂, t = t₁ ++ t₂ ∧ AxisHomed cfg a t₁ ∧ HomedInOrder as t₂

/-- A move is commanded. -/
def IsMove : HomingAct → Prop
  | .append _ => True
  | _ => False

/-- A command to the motion controller. -/
def IsCommand : HomingAct → Prop
  | .stop | .flush | .append _ | .go => True
  | _ => False

/-- `q` is the part of the trace after the last move `m`, and homing was not restarted since. -/
def LastMove (t : List HomingAct) (m : HomingMove) (q : List HomingAct) : Prop :=
  (∃ p, t = p ++ .append m :: q) ∧ ∀ x ∈ q, ¬ IsMove x ∧ x ≠ .started

/-- Move `m` may be commanded after `t`. -/
def Justified (t : List HomingAct) (a : Nat) (m : HomingMove) : Prop :=
  (Approach cfg a m ∧ ∃ p, t = p ++ [.sawClosed (switchOf cfg a) false]) ∨
  (Release cfg a m ∧ ∃ p, t = p ++ [.sawClosed (switchOf cfg a) true]) ∨
  (Release cfg a m ∧ ∃ m₀ q e, LastMove t m₀ q ∧ Approach cfg a m₀ ∧ Closes cfg a e ∧
    List.Sublist [.handled e, .stop, .handled .motionStopped] q) ∨
  (Offset cfg a m ∧ ∃ m₀ q e, LastMove t m₀ q ∧ Release cfg a m₀ ∧ Opens cfg a e ∧
    List.Sublist [.handled e, .stop, .handled .motionStopped] q)

/-- The motion controller was found idle, or reported standstill, and no motion was started since. -/
def Still (t : List HomingAct) : Prop :=
  ∃ p x q, t = p ++ x :: q ∧ (x = .handled .motionStopped ∨ x = .sawRunning false) ∧ HomingAct.go ∉ q

end Moovr.HomingSpec
