import Mathlib.Data.Rat.Floor
import Mathlib.Algebra.Order.Floor.Ring
import Mathlib.Algebra.Order.Field.Rat
/-!
# The timing of the control loop

`controller_manager/src/ros2_control_node.cpp` (the thread that calls `read`, `update` and `write`) and
`controller_manager/src/sleeping_policies.cpp`. Times are whole nanoseconds. What the clocks say is input.

Simplified: the three calls of `now()` for `read`, `update` and `write` (ros2_control_node.cpp:128-130) are left out; `int64`
does not overflow; the warnings are left out; `rclcpp::ok()` holds as long as there is input.
-/
namespace Verif.Loop

/-- The configuration of the loop (`ControlLoopTimingConfig`, sleeping_policies.hpp:24-30) and the update rate. `rnd` rounds to
a `double`. -/
structure Cfg where
  rate : Nat
  sim : Bool := false
  manage : Bool := true
  blocking : Bool := false
  minCycle : Rat := 1 / 10000
  rnd : Rat → Rat := id

/-- `ControlLoopState` (sleeping_policies.hpp:32-38); `cycle_end_time` is only used within a cycle. -/
structure St where
  previous : Int
  next : Int
  period : Int
  deriving DecidableEq, Repr

/-- What the clocks say in one cycle: the trigger clock at the beginning (ros2_control_node.cpp:122) and after `write` (:131), the
steady clock when the thread prepares to sleep (sleeping_policies.cpp:61), and whether waiting for simulated time throws
(sleeping_policies.cpp:23-33). -/
structure Tick where
  start : Int
  done : Int
  now : Int
  simFails : Bool := false
  deriving DecidableEq, Repr

/-- The update rate made from the parameter `update_rate`, which has 64 bits and is positive (controller_manager.cpp:734,
controller_manager_parameters.yaml:2-10). -/
def rateOf (p : Int) : Nat := (p % 2 ^ 32).toNat

/-- The state before the loop (ros2_control_node.cpp:114-118); `none` is a division by zero. -/
def start (rate : Nat) (previous next : Int) : Option St :=
  if rate = 0 then none else some ⟨previous, next, 1000000000 / rate⟩

/-- `static_cast` of a `double` to a signed integer type with `n` bits: truncation; `none` is undefined behaviour. -/
def castTo (n : Nat) (x : Rat) : Option Int :=
  let v := if 0 ≤ x then ⌊x⌋ else ⌈x⌉
  if -2 ^ (n - 1) ≤ v ∧ v < 2 ^ (n - 1) then some v else none

/-- `overrun_count` (sleeping_policies.cpp:64-69) for a deadline missed by `late`. -/
def overrunCount (c : Cfg) (late : Int) : Option Int :=
  let diff := c.rnd (c.rnd late / 1000000)
  let cmPeriod := c.rnd (1000 / c.rate)
  castTo 32 ⌈c.rnd (diff / cmPeriod)⌉

/-- What a sleeping policy does: it sleeps until a time (if at all) and the loop goes on, or the loop ends, or the behaviour is
undefined. -/
inductive Sleep
  | go (next : Int) (till : Option Int)
  | stop
  | fault
  deriving DecidableEq, Repr

/-- `sleep_for_periodic_cycle` (sleeping_policies.cpp:55-79). -/
def periodic (c : Cfg) (s : St) (now : Int) : Sleep :=
  let n := s.next + s.period
  if c.manage = true ∧ n < now then
    match overrunCount c (now - n) with
    | none => .fault
    | some k => .go (n + k * s.period) (some (n + k * s.period))
  else .go n (some n)

/-- `sleep_for_blocking_read_write` (sleeping_policies.cpp:36-53). -/
def blockingRW (c : Cfg) (s : St) (t : Tick) : Sleep :=
  match castTo 64 (c.rnd (c.minCycle * 1000000000)) with
  | none => .fault
  | some m =>
    if t.done - t.start < m then
      match castTo 32 (c.rnd (c.minCycle * 1000000)) with
      | none => .fault
      | some u => .go s.next (some (t.now + u * 1000))
    else .go s.next none

/-- `sleep_for_sim_time` (sleeping_policies.cpp:17-34), after `previous_time` has been set to the beginning of the cycle. -/
def simTime (s : St) (t : Tick) : Sleep :=
  if t.simFails = true then .stop else .go s.next (some (t.start + s.period))

/-- The choice of the policy (ros2_control_node.cpp:134-149). -/
def sleep (c : Cfg) (s : St) (t : Tick) : Sleep :=
  if c.sim = true then simTime s t
  else if c.blocking = true then blockingRW c s t
  else periodic c s t.now

/-- One cycle as seen from outside: when it began and ended according to the clocks, the period handed to `read`, `update` and
`write`, and until when the thread then sleeps, if it does. -/
structure Cycle where
  start : Int
  done : Int
  now : Int
  measured : Int
  till : Option Int
  deriving DecidableEq, Repr

/-- The cycles of the loop (ros2_control_node.cpp:119-150). The last cycle of a loop that ends has nothing to sleep for. -/
def run (c : Cfg) (s : St) : List Tick → List Cycle
  | [] => []
  | t :: ts =>
    match sleep c s t with
    | .go n u => ⟨t.start, t.done, t.now, t.start - s.previous, u⟩ :: run c { s with previous := t.start, next := n } ts
    | _ => [⟨t.start, t.done, t.now, t.start - s.previous, none⟩]

end Verif.Loop
