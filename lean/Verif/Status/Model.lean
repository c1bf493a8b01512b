import Verif.Text.Parse
import Verif.Core.Types
/-!
# Status messages of hardware components

`HardwareComponentInterface::init` (hardware_interface/src/hardware_component_interface.cpp:67-232): the message template, the timer that
publishes and the call of `on_init`. The thread that initialises the component and the executor that runs the timer are interleaved.

Simplified: a message is its device states and its stamp; the answers of the plugin's methods are functions of the plugin's own variables
(`P`); whether the publisher and the timer can be made is input; exceptions of the plugin's methods are left out (they end the process or
are answered by the resource manager, `RM/Model`).
-/
namespace Verif
namespace HwStatus

/-- `control_msgs::msg::HardwareStatus`: `header.stamp` and `hardware_device_states` (hardware_component_interface.cpp:162, 169, 203). -/
structure Msg (D : Type) where
  stamp : Nat := 0
  devices : List D := []
deriving DecidableEq, Repr

/-- The methods of the plugin that are called: `init_hardware_status_message`, `update_hardware_status_message`, `on_init`
(hardware_component_interface.cpp:163, 196, 231); `true` is SUCCESS or OK. -/
structure Plugin (P D : Type) where
  initMsg : P → Msg D → P × Msg D × Bool
  update : P → Msg D → P × Msg D × Bool
  onInit : P → P × Bool

/-- What is given: the text of the parameter `status_publish_rate`, whether there is an executor (hence a node), whether making the publisher
and the timer succeeds (hardware_component_interface.cpp:121, 145-146, 180-209). -/
structure Setup where
  rate : Option (List Char)
  node : Bool
  makes : Bool

/-- The rate (hardware_component_interface.cpp:144-158): 0 if there is none or it is not a number. `round` rounds to a double. -/
def rateOf (round : Rat → Option Rat) : Option (List Char) → Rat
  | none => 0
  | some t => match Text.stod round t with
    | .ok q => q
    | _ => 0

/-- Where the initialising thread is. -/
inductive Pc | start | fill | onInit | done | failed
deriving DecidableEq, Repr

/-- What can be seen: calls of the plugin with what they were given and answered, and published messages. -/
inductive Ev (D : Type)
  | initMsg (ok : Bool)
  | onInit (ok : Bool)
  | update (given result : Msg D) (ok : Bool)
  | publish (m : Msg D)
deriving DecidableEq, Repr

/-- The component: the plugin's own variables, the thread, the local template, `hardware_status_box_`, the timer, the history (newest
first). -/
structure St (P D : Type) where
  p : P
  pc : Pc := .start
  template : Msg D := {}
  box : Option (Msg D) := none
  timer : Bool := false
  tr : List (Ev D) := []

/-- The first part of `init` (hardware_component_interface.cpp:160-190). -/
def begin {P D : Type} (g : Plugin P D) (round : Rat → Option Rat) (u : Setup) (s : St P D) : St P D :=
  if 0 < rateOf round u.rate then
    let r := g.initMsg s.p {}
    let s1 := { s with p := r.1, template := r.2.1, tr := .initMsg r.2.2 :: s.tr }
    if r.2.2 = false then { s1 with pc := .failed }
    else if r.2.1.devices = [] then { s1 with pc := .onInit }
    else if u.node = false then { s1 with pc := .onInit }
    else if u.makes = false then { s1 with pc := .failed }
    else { s1 with pc := .fill, timer := true }
  else { s with pc := .onInit }

/-- The callback of the timer (hardware_component_interface.cpp:188-206): it works on a copy of what is in the box. -/
def tick {P D : Type} (g : Plugin P D) (now : Nat) (s : St P D) : St P D :=
  match s.box with
  | none => s
  | some m =>
    let r := g.update s.p m
    if r.2.2 then
      { s with p := r.1, tr := .publish { r.2.1 with stamp := now } :: .update m r.2.1 true :: s.tr }
    else { s with p := r.1, tr := .update m r.2.1 false :: s.tr }

/-- Steps: the initialising thread goes on; the timer expires; other methods of the plugin change its variables; the component is
destroyed, and its timer with it. -/
inductive Op (P : Type)
  | go
  | tick (now : Nat)
  | other (f : P → P)
  | destroy

/-- One step (hardware_component_interface.cpp:160-231). -/
def step {P D : Type} (g : Plugin P D) (round : Rat → Option Rat) (u : Setup) (s : St P D) : Op P → St P D
  | .go => match s.pc with
    | .start => begin g round u s
    | .fill => { s with box := some s.template, pc := .onInit }
    | .onInit =>
      let r := g.onInit s.p
      { s with p := r.1, pc := if r.2 then .done else .failed, tr := .onInit r.2 :: s.tr }
    | _ => s
  | .tick now => if s.timer then tick g now s else s
  | .other f => { s with p := f s.p }
  | .destroy => { s with timer := false }

/-- Any schedule. -/
def run {P D : Type} (g : Plugin P D) (round : Rat → Option Rat) (u : Setup) (s : St P D) (ops : List (Op P)) : St P D :=
  ops.foldl (step g round u) s

/-- A component before `init`. -/
def fresh {P D : Type} (p : P) : St P D := { p := p }

end HwStatus
end Verif
